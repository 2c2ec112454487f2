import Verif.Arrays.FSets
import Verif.Arrays.Tuples
/-
Properties of the dictionaries, sets and tuples that are backed by arrays of the SMT solver.
-/
set_option linter.unusedSectionVars false

namespace Verif.Arrays

variable {K V : Type} [DecidableEq K] [DecidableEq V]

/-- The solver's variables have the values for this Python dictionary. -/
def Describes (d : Dict K V) (D : List (K × V)) : Prop :=
  (keys D).Nodup ∧ (∀ k, d.arr k = (D.find? fun e => e.1 = k).map (·.2)) ∧ d.len = D.length

/-- The solver's variables have the values for this Python set. -/
def DescribesSet (s : FSet K) (S : List K) : Prop :=
  S.Nodup ∧ (∀ k, s.arr k = decide (k ∈ S)) ∧ s.len = S.length

theorem describes_arr {d : Dict K V} {D : List (K × V)} (h : Describes d D) (k : K) (v : V) :
    d.arr k = some v ↔ (k, v) ∈ D := by
  rw [h.2.1 k, ← find_key h.1]
  constructor
  · intro he
    cases hf : D.find? fun e => e.1 = k with
    | none => rw [hf] at he; cases he
    | some e =>
      rw [hf] at he
      have h1 := List.find?_some hf
      simp only [decide_eq_true_eq] at h1
      simp only [Option.map_some, Option.some.injEq] at he
      rw [← h1, ← he]
  · intro he
    rw [he]
    rfl

theorem describes_order {d : Dict K V} {D : List (K × V)} (h : Describes d D) : Order d (keys D) := by
  refine ⟨h.1, ?_, by rw [h.2.2]; simp [keys]⟩
  intro k
  rw [Option.isSome_iff_exists]
  simp only [describes_arr h, keys, List.mem_map]
  constructor
  · rintro ⟨v, hv⟩
    exact ⟨(k, v), hv, rfl⟩
  · rintro ⟨e, he, rfl⟩
    exact ⟨e.2, he⟩

theorem items_self {d : Dict K V} (D : List (K × V)) (h : ∀ e ∈ D, d.arr e.1 = some e.2) : items d (keys D) = D := by
  induction D with
  | nil => rfl
  | cons e D ih =>
    have h1 := h e List.mem_cons_self
    have h2 := ih fun e he => h e (List.mem_cons_of_mem _ he)
    have : items d (keys (e :: D)) = e :: items d (keys D) := by simp [items, keys, h1]
    rw [this, h2]

theorem order_describes {d : Dict K V} {o : List K} (h : Order d o) : Describes d (items d o) := by
  have hk : keys (items d o) = o := keys_items fun k hk => (h.2.1 k).2 hk
  exact ⟨hk.symm ▸ h.1, fun k => (find_items h k).symm, by rw [length_items h, h.2.2]⟩

theorem describes_init {d : Dict K V} {D : List (K × V)} (h : Describes d D) : d.Init := by
  refine ⟨by rw [h.2.2]; omega, ?_⟩
  rw [h.2.2]
  constructor
  · intro he
    cases D with
    | nil => rfl
    | cons e D =>
      have := (describes_arr h e.1 e.2).2 List.mem_cons_self
      rw [he] at this
      cases this
  · intro he
    have : D = [] := List.length_eq_zero_iff.1 (by exact_mod_cast he)
    subst this
    funext k
    rw [h.2.1 k]
    rfl

/-! ### C105: symbolic dictionaries -/

/-- On every path that is not abandoned, all answers are those of one Python dictionary: the one that the
solver's values describe.  In particular all iterators give the keys in the same order, each key once, as
many as the length says. -/
theorem dict_real {d : Dict K V} {ops : List (Op K V)} {os : List (Obs K V)} {σ : State K (K → Option V)}
    (hi : d.Init) (hr : DictRun d ⟨[], []⟩ ops os σ) (hk : Obs.ignored ∉ os) (hd : d.Iterated σ)
    (hg : ∀ op ∈ ops, GoodOp op) : ∃ D, Describes d D ∧ pyRun D [] ops = os := by
  obtain ⟨h1, h2⟩ := run_mono hr (start_inv hi)
  obtain ⟨c, hc⟩ := hd
  obtain ⟨h3, h4⟩ := drain_order hc h1.1 (gen_start d _)
  exact ⟨items d c, order_describes h4, run_py hi h4 hr (start_inv hi) h3 hk hg⟩

/-- Every Python dictionary is one of them: with values that describe it, all questions can be answered as
Python does, in its order, and the path is kept. -/
theorem dict_all {d : Dict K V} {D : List (K × V)} (h : Describes d D) (ops : List (Op K V))
    (hg : ∀ op ∈ ops, GoodOp op) :
    d.Init ∧ ∃ σ, DictRun d ⟨[], []⟩ ops (pyRun D [] ops) σ ∧ d.Iterated σ := by
  have hi := describes_init h
  have ho := describes_order h
  have hit : items d (keys D) = D := items_self D fun e he => (describes_arr h e.1 e.2).2 he
  obtain ⟨υ, h1, h2⟩ := run_exists hi ho ops hg ⟨[], []⟩ (start_inv hi) List.nil_prefix
  rw [hit] at h1
  refine ⟨hi, υ, h1, ?_⟩
  have h3 := (run_mono h1 (start_inv hi)).1
  exact drain_exists ho (keys D).length υ.cache ⟨0, d.arr⟩ h3.1 (gen_start d _) h2 (by simp)

/-- There are values for every dictionary. -/
theorem dict_described (D : List (K × V)) (h : (keys D).Nodup) :
    Describes ⟨fun k => (D.find? fun e => e.1 = k).map (·.2), D.length⟩ D := ⟨h, fun _ => rfl, rfl⟩

/-- Paths are abandoned only if no Python dictionary has the solver's values, whatever was asked. -/
theorem dict_abandoned {d : Dict K V} {D : List (K × V)} (h : Describes d D) {ops : List (Op K V)}
    {os : List (Obs K V)} {σ : State K (K → Option V)} (hr : DictRun d ⟨[], []⟩ ops os σ) : Obs.ignored ∉ os :=
  run_kept (describes_init h) (describes_order h) hr (start_inv (describes_init h))

/-- Two iterators at once, a lookup and a comparison: this is a run. -/
example : ∃ (d : Dict Nat Nat) (σ : State Nat (Nat → Option Nat)), d.Init ∧ DictRun d ⟨[], []⟩
    [.iter, .next 0, .iter, .next 1, .next 1, .next 0, .next 0, .get 2, .get 3, .contains 1, .len, .truth,
      .eq [(2, 20), (1, 10)], .eq [(1, 10), (2, 21)]]
    [.started, .yield 1, .started, .yield 1, .yield 2, .yield 2, .stop, .value 20, .keyError, .bool true, .num 2,
      .bool true, .bool true, .bool false] σ ∧ d.Iterated σ := by
  obtain ⟨h1, σ, h2, h3⟩ := dict_all (dict_described [((1 : Nat), (10 : Nat)), (2, 20)] (by decide))
    [.iter, .next 0, .iter, .next 1, .next 1, .next 0, .next 0, .get 2, .get 3, .contains 1, .len, .truth,
      .eq [(2, 20), (1, 10)], .eq [(1, 10), (2, 21)]] (by
        intro op hop
        simp only [List.mem_cons, List.not_mem_nil, or_false] at hop
        rcases hop with h | h | h | h | h | h | h | h | h | h | h | h | h | h <;> subst h <;>
          first | trivial | (show (keys _).Nodup; decide))
  exact ⟨_, σ, h1, h2, h3⟩

/-- Without the deferred check a path may have gone on with a length that is not the number of keys. -/
example : ∃ d : Dict Nat Nat, d.Init ∧ d.len = 2 ∧ ¬ ∃ D, Describes d D := by
  refine ⟨⟨fun k => if k = 7 then some 1 else none, 2⟩, ⟨by decide, ?_⟩, rfl, ?_⟩
  · constructor
    · intro h
      have := congrFun h 7
      simp at this
    · intro h
      simp at h
  · rintro ⟨D, hD⟩
    have ho := describes_order hD
    have hsub : ∀ k ∈ keys D, k ∈ [7] := by
      intro k hk
      have := (ho.2.1 k).2 hk
      by_cases e : k = 7
      · simp [e]
      · simp [e] at this
    have h1 := (List.subperm_of_subset ho.1 hsub).length_le
    have h2 := ho.2.2
    simp at h1 h2
    omega

/-! ### C106: symbolic sets -/

theorem set_describes_order {s : FSet K} {S : List K} (h : DescribesSet s S) : Order (asDict s) S := by
  refine ⟨h.1, ?_, h.2.2.symm⟩
  intro k
  show (conv s.arr k).isSome = true ↔ _
  rw [conv_isSome, h.2.1 k]
  simp

theorem set_order_describes {s : FSet K} {o : List K} (h : Order (asDict s) o) : DescribesSet s o := by
  refine ⟨h.1, ?_, h.2.2.symm⟩
  intro k
  have := h.2.1 k
  change (conv s.arr k).isSome = true ↔ _ at this
  rw [conv_isSome] at this
  rw [Bool.eq_iff_iff]
  simp [this]

theorem set_describes_init {s : FSet K} {S : List K} (h : DescribesSet s S) : s.Init := by
  refine ⟨by rw [h.2.2]; omega, ?_⟩
  rw [h.2.2]
  constructor
  · intro he
    cases S with
    | nil => rfl
    | cons k S =>
      have := h.2.1 k
      rw [he] at this
      simp at this
  · intro he
    have : S = [] := List.length_eq_zero_iff.1 (by exact_mod_cast he)
    subst this
    funext k
    rw [h.2.1 k]
    rfl

/-- On every path that is not abandoned and whose sets are consistent in the end, all answers are those of
one Python set; all iterations give its elements in the same order. -/
theorem set_real {s : FSet K} {ops : List (SetOp K)} {os : List (Obs K Unit)} {σ : State K (K → Bool)}
    (hi : s.Init) (hr : SetRun s ⟨[], []⟩ ops os σ) (hk : Obs.ignored ∉ os) (hc : s.Consistent)
    (hg : ∀ op ∈ ops, GoodSetOp op) : ∃ S, DescribesSet s S ∧ pySetRun S [] ops = os := by
  obtain ⟨h1, -⟩ := set_run_mono hr (set_start_inv hi) hg
  obtain ⟨o, h2, h3⟩ := consistent_order hc h1.1
  exact ⟨o, set_order_describes h2, set_run_py h2 hr (set_start_inv hi) h3 hk hg⟩

/-- Every Python set is one of them. -/
theorem set_all {s : FSet K} {S : List K} (h : DescribesSet s S) (ops : List (SetOp K))
    (hg : ∀ op ∈ ops, GoodSetOp op) :
    s.Init ∧ s.Consistent ∧ ∃ σ, SetRun s ⟨[], []⟩ ops (pySetRun S [] ops) σ := by
  have hi := set_describes_init h
  have ho := set_describes_order h
  obtain ⟨υ, h1, -⟩ := set_run_exists ho ops hg ⟨[], []⟩ (set_start_inv hi) List.nil_prefix
  exact ⟨hi, order_consistent ho, υ, h1⟩

/-- There are values for every set. -/
theorem set_described (S : List K) (h : S.Nodup) : DescribesSet ⟨fun k => decide (k ∈ S), S.length⟩ S :=
  ⟨h, fun _ => rfl, rfl⟩

/-- Paths are abandoned only if no Python set has the solver's values. -/
theorem set_abandoned {s : FSet K} {S : List K} (h : DescribesSet s S) {ops : List (SetOp K)}
    {os : List (Obs K Unit)} {σ : State K (K → Bool)} (hr : SetRun s ⟨[], []⟩ ops os σ)
    (hg : ∀ op ∈ ops, GoodSetOp op) : Obs.ignored ∉ os :=
  set_run_kept (set_describes_order h) hr (set_start_inv (set_describes_init h)) hg

example : ∃ (s : FSet Nat) (σ : State Nat (Nat → Bool)), s.Init ∧ s.Consistent ∧ SetRun s ⟨[], []⟩
    [.iter, .next 0, .eq [1, 5], .iter, .next 1, .next 1, .next 1, .next 0, .contains 4, .len, .eq [1, 4]]
    [.started, .yield 5, .bool true, .started, .yield 5, .yield 1, .stop, .yield 1, .bool false, .num 2,
      .bool false] σ := by
  obtain ⟨h1, h2, σ, h3⟩ := set_all (set_described [(5 : Nat), 1] (by decide))
    [.iter, .next 0, .eq [1, 5], .iter, .next 1, .next 1, .next 1, .next 0, .contains 4, .len, .eq [1, 4]] (by
        intro op hop
        simp only [List.mem_cons, List.not_mem_nil, or_false] at hop
        rcases hop with h | h | h | h | h | h | h | h | h | h | h <;> subst h <;>
          first | trivial | (show List.Nodup _; decide))
  exact ⟨_, σ, h1, h2, h3⟩

/-! ### C107: comparing and unifying -/

/-- Two symbolic dictionaries are equal exactly if the Python dictionaries have the same items. -/
theorem dict_eq_symbolic {d e : Dict K V} {D E : List (K × V)} (hd : Describes d D) (he : Describes e E) :
    d.eqSym e ↔ sameItems D E = true := by
  rw [sameItems_iff]
  constructor
  · rintro ⟨-, h⟩ ⟨k, v⟩
    rw [← describes_arr hd, ← describes_arr he, h]
  · intro h
    have hp : D.Perm E := (List.perm_ext_iff_of_nodup (nodup_of_keys hd.1) (nodup_of_keys he.1)).2 h
    refine ⟨by rw [hd.2.2, he.2.2, hp.length_eq], ?_⟩
    funext k
    apply Option.ext
    intro v
    rw [describes_arr hd, describes_arr he]
    exact h (k, v)

theorem foldl_items (l : List (K × V)) (hn : (keys l).Nodup) (a : K → Option V) (k : K) :
    (l.foldl (fun a e => store a e.1 (some e.2)) a) k =
      match l.find? fun e => e.1 = k with
      | some e => some e.2
      | none => a k := by
  induction l generalizing a with
  | nil => rfl
  | cons e l ih =>
    have hn' : e.1 ∉ keys l ∧ (keys l).Nodup := List.nodup_cons.1 hn
    rw [List.foldl_cons, ih hn'.2]
    by_cases hk : e.1 = k
    · rw [List.find?_cons_of_pos (by simpa using hk)]
      have : (l.find? fun e => e.1 = k) = none := by
        rw [List.find?_eq_none]
        intro f hf hfk
        simp only [decide_eq_true_eq] at hfk
        exact hn'.1 (List.mem_map.2 ⟨f, hf, hfk.trans hk.symm⟩)
      rw [this]
      simp [store, hk]
    · rw [List.find?_cons_of_neg (by simpa using hk)]
      cases l.find? fun e => e.1 = k with
      | none =>
        show store a e.1 (some e.2) k = a k
        rw [store, if_neg fun h : k = e.1 => hk h.symm]
      | some f => rfl

/-- A symbolic dictionary is unified with a given one exactly if they have the same items. -/
theorem dict_unify {d : Dict K V} {D other : List (K × V)} (hd : Describes d D) (ho : (keys other).Nodup) :
    d.unify other ↔ sameItems D other = true := by
  have he : Describes ⟨other.foldl (fun a e => store a e.1 (some e.2)) fun _ => none, other.length⟩ other := by
    refine ⟨ho, fun k => ?_, rfl⟩
    show (other.foldl (fun a e => store a e.1 (some e.2)) fun _ => none) k = _
    rw [foldl_items other ho]
    cases other.find? fun e => e.1 = k <;> rfl
  rw [← dict_eq_symbolic hd he, Dict.unify, Dict.eqSym, eq_comm (a := d.arr)]

/-- Two symbolic sets are equal exactly if the Python sets have the same elements. -/
theorem set_eq_symbolic {s t : FSet K} {S T : List K} (hs : DescribesSet s S) (ht : DescribesSet t T) :
    s.eqSym t ↔ sameElems S T = true := by
  rw [sameElems_iff]
  constructor
  · rintro ⟨-, h⟩ k
    have h1 := hs.2.1 k
    have h2 := ht.2.1 k
    rw [h, h2] at h1
    simpa using h1.symm
  · intro h
    have hp : S.Perm T := (List.perm_ext_iff_of_nodup hs.1 ht.1).2 h
    refine ⟨by rw [hs.2.2, ht.2.2, hp.length_eq], ?_⟩
    funext k
    rw [hs.2.1 k, ht.2.1 k]
    simp [h k]

/-- A symbolic set is unified with a given one exactly if they have the same elements. -/
theorem set_unify {s : FSet K} {S other : List K} (hs : DescribesSet s S) (ho : other.Nodup) :
    s.unify other ↔ sameElems S other = true := by
  have he : DescribesSet ⟨other.foldl (fun a k => store a k true) fun _ => false, other.length⟩ other := by
    refine ⟨ho, fun k => ?_, rfl⟩
    show (other.foldl (fun a k => store a k true) fun _ => false) k = _
    rw [foldl_store]
    simp
  rw [← set_eq_symbolic hs he, FSet.unify, FSet.eqSym, eq_comm (a := s.arr)]

/-- A symbolic tuple is unified with a given one exactly if it has the same elements. -/
theorem tuple_unify {A : Type} {t : Tup A} (h : t.Init) (other : List A) : t.unify other ↔ t.iter = other := by
  have hl := iter_length h
  rw [Tup.unify]
  by_cases h0 : other.length = 0
  · rw [if_pos h0]
    have : other = [] := List.length_eq_zero_iff.1 h0
    subst this
    rw [← List.length_eq_zero_iff]
    simp only [List.length_nil]
    omega
  · rw [if_neg h0]
    constructor
    · rintro ⟨h1, h2⟩
      apply List.ext_getElem?
      intro i
      by_cases hi : i < other.length
      · rw [iter_get h (by omega), List.getElem?_eq_getElem hi, h2 i _ (List.getElem?_eq_getElem hi)]
      · rw [List.getElem?_eq_none (by omega), List.getElem?_eq_none (by omega)]
    · rintro rfl
      refine ⟨hl.symm, fun i v hv => ?_⟩
      obtain ⟨hlt, -⟩ := List.getElem?_eq_some_iff.1 hv
      rw [iter_get h (by omega)] at hv
      exact Option.some.inj hv

example : (⟨fun i => if i = 0 then 5 else 6, 2⟩ : Tup Nat).unify [5, 6] :=
  (tuple_unify (t := ⟨fun i => if i = 0 then 5 else 6, 2⟩) (show (0 : Int) ≤ 2 by omega) _).2 (by decide)

/-! ### C108: symbolic tuples -/

open Verif.Seq (PyErr Slice pyGet pySlice LexLt)

variable {A : Type}

/-- There is a symbolic tuple for every tuple. -/
theorem tuple_all [Inhabited A] (l : List A) :
    ∃ t : Tup A, t.Init ∧ t.iter = l ∧ t.len = l.length := by
  refine ⟨⟨fun i => l.getD i.toNat default, l.length⟩, show (0 : Int) ≤ l.length by omega, ?_, rfl⟩
  have hi : (⟨fun i => l.getD i.toNat default, l.length⟩ : Tup A).Init := show (0 : Int) ≤ l.length by omega
  apply List.ext_getElem?
  intro i
  by_cases h : i < l.length
  · rw [iter_get hi (by simpa using h)]
    simp [List.getElem?_eq_getElem h]
  · have := iter_length hi
    simp only at this
    rw [List.getElem?_eq_none (by omega), List.getElem?_eq_none (by omega)]

/-- The length is the number of elements. -/
theorem tuple_len {t : Tup A} (h : t.Init) : t.len = t.iter.length := (iter_length h).symm

/-- Indexing, with any index. -/
theorem tuple_get {t : Tup A} (h : t.Init) (i : Int) : t.get i = pyGet t.iter i := get_py h i

/-- Slices without a step, or with step one, are Python's, with any start and stop.  Missing: other steps
(`tuple_step_dropped`). -/
theorem tuple_slice_partial {t : Tup A} (h : t.Init) (s : Slice) (hs : s.step = none ∨ s.step = some 1) :
    t.slice s = pySlice t.iter s := slice_py h s hs

/-- Disagreement: the step of a slice is dropped.  `t[::-1]` and `t[::2]` are `t`, and `t[::0]` does not
raise `ValueError`, on any tuple. -/
theorem tuple_step_dropped {t : Tup A} (h : t.Init) (start stop : Option Int) (step : Int) :
    t.slice ⟨start, stop, some step⟩ = pySlice t.iter ⟨start, stop, some 1⟩ := by
  rw [← slice_py h _ (Or.inr rfl)]
  rfl

/-- Disagreement: so the reversed tuple is not reversed. -/
theorem tuple_not_reversed : ∃ t : Tup Nat, t.Init ∧ t.iter = [1, 2, 3] ∧
    t.slice ⟨none, none, some (-1)⟩ = .ok [1, 2, 3] ∧ pySlice t.iter ⟨none, none, some (-1)⟩ = .ok [3, 2, 1] ∧
    t.slice ⟨none, none, some 0⟩ = .ok [1, 2, 3] ∧
    pySlice t.iter ⟨none, none, some 0⟩ = .error .valueError := by
  have hit : (⟨fun i => i.toNat + 1, 3⟩ : Tup Nat).iter = [1, 2, 3] := by decide
  refine ⟨⟨fun i => i.toNat + 1, 3⟩, show (0 : Int) ≤ 3 by omega, hit, rfl, ?_, rfl, rfl⟩
  rw [hit]
  simp [pySlice, Seq.pyIndices, Seq.elems, Range.Rng.iter, Range.iterDown, Seq.lookup]

/-- `==` with a tuple that is not symbolic. -/
theorem tuple_eq [DecidableEq A] {t : Tup A} (h : t.Init) (other : List A) :
    t.eq other = .ok (decide (t.iter = other)) := eq_py h other

/-- Two symbolic tuples that are found equal are equal.  Missing: the converse (`tuple_eq_beyond_end`). -/
theorem tuple_eq_symbolic_partial {t u : Tup A} (ht : t.Init) (hu : u.Init) (h : t.eqSym u) : t.iter = u.iter :=
  (iter_ext ht hu).2 ⟨h.1, fun i _ _ => by rw [h.2]⟩

/-- Disagreement: symbolic tuples with the same elements can be found different, because the whole arrays
are compared, and these differ beyond the end.  Here is such a pair for every tuple. -/
theorem tuple_eq_beyond_end (t : Tup Nat) (ht : t.Init) :
    ∃ u : Tup Nat, u.Init ∧ t.iter = u.iter ∧ ¬ t.eqSym u := by
  refine ⟨⟨fun i => if i < t.len then t.arr i else t.arr i + 1, t.len⟩, ht, ?_, ?_⟩
  · refine (iter_ext ht (u := ⟨fun i => if i < t.len then t.arr i else t.arr i + 1, t.len⟩) ht).2
      ⟨rfl, fun i h0 h1 => ?_⟩
    show t.arr i = if i < t.len then t.arr i else t.arr i + 1
    rw [if_pos h1]
  · rintro ⟨-, h⟩
    have := congrFun h t.len
    simp at this

/-- The order is the lexicographic one. -/
theorem tuple_order [DecidableEq A] {lt : A → A → Bool} (hir : ∀ a, lt a a = false) {t : Tup A} (h : t.Init)
    (other : List A) :
    (t.lt lt other = true ↔ LexLt lt t.iter other) ∧
    (t.le lt other = true ↔ LexLt lt t.iter other ∨ t.iter = other) ∧
    (t.gt lt other = true ↔ LexLt lt other t.iter) ∧
    (t.ge lt other = true ↔ LexLt lt other t.iter ∨ other = t.iter) := by
  have hl := tuple_len h
  refine ⟨?_, ?_, ?_, ?_⟩
  · rw [← Seq.seqLt_iff hir, Tup.lt, Seq.seqLt, ← lexLoop_eq, hl]
    simp
  · rw [← Seq.seqLe_iff hir, Tup.le, Seq.seqLe, ← lexLoop_eq, hl]
    simp
  · rw [← Seq.seqGt_iff hir, Tup.gt, Seq.seqGt, ← lexLoop_eq, hl]
    simp
  · rw [← Seq.seqGe_iff hir, Tup.ge, Seq.seqGe, ← lexLoop_eq, hl]
    simp

/-- `in`. -/
theorem tuple_contains {t : Tup A} (h : t.Init) (v : A) : t.Contains v ↔ v ∈ t.iter := contains_py h v

/-- Where a search that starts (or stops) at `i` does so in a sequence of the given length. -/
def bound (i : Int) (len : Nat) : Int := if i < 0 then max (i + len) 0 else min i len

/-- `index`: the first place between start and stop with the value, or `ValueError` if there is none. -/
theorem tuple_index [DecidableEq A] {t : Tup A} (h : t.Init) (v : A) (start stop : Int) :
    (∀ j, t.index v start stop = .ok j ↔
      (bound start t.iter.length ≤ j ∧ j < bound stop t.iter.length ∧ t.iter[j.toNat]? = some v ∧
        ∀ m : Nat, bound start t.iter.length ≤ m → (m : Int) < j → t.iter[m]? ≠ some v)) ∧
    (t.index v start stop = .error .valueError ↔
      ∀ m : Nat, bound start t.iter.length ≤ m → (m : Int) < bound stop t.iter.length →
        t.iter[m]? ≠ some v) := by
  have hl := iter_length h
  have h0 : 0 ≤ t.len := h
  -- the loop's bounds
  let a : Int := max (if start < 0 then start + t.len else start) 0
  let b : Int := min (if stop < 0 then stop + t.len else stop) t.len
  have hidx : t.index v start stop = t.indexLoop v (b - a).toNat a := rfl
  have ha0 : 0 ≤ a := by omega
  have hb : b ≤ t.len := by omega
  have hbs : bound start t.iter.length = min a t.len := by
    rw [bound, hl]
    show _ = min (max (if start < 0 then start + t.len else start) 0) t.len
    split <;> omega
  have hbt : bound stop t.iter.length = max b 0 := by
    rw [bound, hl]
    show _ = max (min (if stop < 0 then stop + t.len else stop) t.len) 0
    split <;> omega
  have hget : ∀ m : Nat, (m : Int) < t.len → (t.iter[m]? = some v ↔ t.arr m = v) := by
    intro m hm
    rw [iter_get h hm]
    simp
  rw [hidx, hbs, hbt]
  by_cases hab : a ≤ b
  · rcases indexLoop_eq (t := t) v (b - a).toNat a ha0 (by omega) with ⟨j, h1, h2, h3, h4, h5⟩ | ⟨h1, h2⟩
    · have hfirst : ∀ m : Nat, a ≤ m → (m : Int) < j → t.iter[m]? ≠ some v := by
        intro m h6 h7 h8
        exact h5 m h6 h7 ((hget m (by omega)).1 h8)
      have hj : t.iter[j.toNat]? = some v := by
        rw [hget j.toNat (by omega), Int.toNat_of_nonneg (by omega)]
        exact h4
      rw [h1]
      refine ⟨fun j' => ⟨?_, ?_⟩, ⟨fun h6 => (by cases h6), fun h6 => ?_⟩⟩
      · intro h6
        cases h6
        refine ⟨by omega, by omega, hj, ?_⟩
        intro m h6 h7
        exact hfirst m (by omega) h7
      · rintro ⟨h6, h7, h8, h9⟩
        congr 1
        by_cases hlt : j < j'
        · exact absurd hj (h9 j.toNat (by omega) (by omega))
        · by_cases hgt : j' < j
          · exact absurd h8 (hfirst j'.toNat (by omega) (by omega))
          · omega
      · exact absurd hj (h6 j.toNat (by omega) (by omega))
    · rw [h1]
      refine ⟨fun j' => ⟨fun h6 => (by cases h6), ?_⟩, ⟨fun _ => ?_, fun _ => rfl⟩⟩
      · rintro ⟨h6, h7, h8, -⟩
        rw [hget j'.toNat (by omega), Int.toNat_of_nonneg (by omega)] at h8
        exact absurd h8 (h2 j' (by omega) (by omega))
      · intro m h6 h7 h8
        exact h2 m (by omega) (by omega) ((hget m (by omega)).1 h8)
  · rw [show (b - a).toNat = 0 by omega]
    rw [Tup.indexLoop]
    refine ⟨fun j' => ⟨fun h6 => (by cases h6), ?_⟩, ⟨fun _ m h6 h7 => (by omega), fun _ => rfl⟩⟩
    rintro ⟨h6, h7, -, -⟩
    omega

/-- `*`. -/
theorem tuple_mul {t : Tup A} (h : t.Init) (n : Int) : t.mul n = .ok (Seq.pyMul t.iter n) := by
  rw [Tup.mul, Seq.pyMul]
  by_cases hn : n ≤ 0
  · rw [if_pos hn, slice_py h _ (Or.inl rfl), show n.toNat = 0 by omega]
    have hl := iter_length h
    rw [pySlice]
    simp only [Seq.pyIndices, Option.getD_none]
    simp only [show ¬ ((1 : Int) = 0) by omega, show ¬ ((1 : Int) < 0) by omega, if_false, Int.lt_irrefl]
    rw [show min (0 : Int) (t.iter.length : Int) = 0 by omega]
    rw [Seq.elems_empty_up _ (by omega) (by omega)]
    rfl
  · rw [if_neg hn, mul_foldl]
    congr 3
    omega

example : ∃ t : Tup Nat, t.Init ∧ t.iter = [4, 5, 4] ∧ t.get (-1) = .ok 4 ∧ t.get 3 = .error .indexError ∧
    t.slice ⟨some (-2), some 9, none⟩ = .ok [5, 4] ∧ t.index 4 1 100 = .ok 2 ∧
    t.index 5 (-1) 100 = .error .valueError ∧ t.mul 2 = .ok [4, 5, 4, 4, 5, 4] := by
  refine ⟨⟨fun i => if i = 1 then 5 else 4, 3⟩, show (0 : Int) ≤ 3 by omega, by decide, rfl, rfl, rfl, rfl, rfl, rfl⟩

end Verif.Arrays
