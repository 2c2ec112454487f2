import Verif.DefaultDicts.Model
/-
Where symbolic `defaultdict`s do what Python's do, and where not.
-/
namespace Verif.DefaultDicts

variable {K V : Type} [DecidableEq K]

/-- The key an operation is for, if it is one that Python does not call the factory for. -/
def looked : Op K V → Option K
  | .contains k => some k
  | .get k _ => some k
  | .pop k => some k
  | .popDefault k _ => some k
  | .setdefault k _ => some k
  | _ => none

/-- An operation does what Python's does if it is not `popitem`, and is for a key that is there, or there is no factory, or it is one of `d[k]`,
`d[k] = v`, `del d[k]` and `len(d)`. -/
theorem step_partial (d : Dict K V) (op : Op K V) (hp : op ≠ .popitem)
    (h : d.factory = none ∨ ∀ k, looked op = some k → (find d.entries k).isSome = true) : step d op = python d op := by
  cases op with
  | popitem => exact absurd rfl hp
  | len => rfl
  | set k v => rfl
  | item k =>
    simp only [step, python, getitem]
    cases find d.entries k with
    | some v => rfl
    | none => cases d.factory <;> rfl
  | del k =>
    simp only [step, python, delitem]
    cases find d.entries k <;> rfl
  | contains k =>
    simp only [step, python, contains, getitem]
    cases hf : find d.entries k with
    | some v => rfl
    | none => rcases h with h | h
              · simp only [h]; rfl
              · have := h k rfl; rw [hf] at this; cases this
  | get k v =>
    simp only [step, python, get, getitem]
    cases hf : find d.entries k with
    | some v => rfl
    | none => rcases h with h | h
              · simp only [h]; rfl
              · have := h k rfl; rw [hf] at this; cases this
  | pop k =>
    simp only [step, python, pop, getitem]
    cases hf : find d.entries k with
    | some v => simp only [delitem, hf]
    | none => rcases h with h | h
              · simp only [h]
              · have := h k rfl; rw [hf] at this; cases this
  | popDefault k v =>
    simp only [step, python, pop, getitem]
    cases hf : find d.entries k with
    | some v => simp only [delitem, hf]
    | none => rcases h with h | h
              · simp only [h]
              · have := h k rfl; rw [hf] at this; cases this
  | setdefault k v =>
    simp only [step, python, setdefault, getitem]
    cases hf : find d.entries k with
    | some v => rfl
    | none => rcases h with h | h
              · simp only [h]
              · have := h k rfl; rw [hf] at this; cases this

theorem python_factory (d : Dict K V) (op : Op K V) : (python d op).1.factory = d.factory := by
  cases op with
  | item k => simp only [python]; cases find d.entries k <;> simp only; cases h : d.factory <;> simp only [h]
  | popitem => simp only [python]; cases d.entries.getLast? <;> rfl
  | del k => simp only [python]; cases find d.entries k <;> rfl
  | pop k => simp only [python]; cases find d.entries k <;> rfl
  | popDefault k v => simp only [python]; cases find d.entries k <;> rfl
  | setdefault k v => simp only [python]; cases find d.entries k <;> rfl
  | _ => rfl

/-- All programs without `popitem` do what Python's do, if there is no factory. -/
theorem no_factory_partial : ∀ (ops : List (Op K V)) (d : Dict K V), d.factory = none → Op.popitem ∉ ops →
    runAll step d ops = runAll python d ops
  | [], _, _, _ => rfl
  | op :: ops, d, h, hp => by
    have h1 := step_partial d op (fun e => hp (by rw [e]; exact List.mem_cons_self)) (Or.inl h)
    have h2 := no_factory_partial ops (python d op).1 ((python_factory d op).trans h) fun hm => hp (List.mem_cons_of_mem _ hm)
    simp only [runAll, h1, h2]

/-- All programs of `d[k]`, `d[k] = v`, `del d[k]` and `len(d)` do what Python's do, with any factory. -/
theorem items_partial : ∀ (ops : List (Op K V)) (d : Dict K V), (∀ op ∈ ops, looked op = none ∧ op ≠ .popitem) →
    runAll step d ops = runAll python d ops
  | [], _, _ => rfl
  | op :: ops, d, h => by
    have h0 := h op List.mem_cons_self
    have h1 := step_partial d op h0.2 (Or.inr fun k hk => by rw [h0.1] at hk; cases hk)
    have h2 := items_partial ops (python d op).1 fun o ho => h o (List.mem_cons_of_mem _ ho)
    simp only [runAll, h1, h2]

/-- A dictionary with one entry and a factory for lists, as it were. -/
def sample : Dict Nat Nat := ⟨[(1, 10)], some fun n => 100 + n, 0⟩

example : (runAll step sample [.item 2, .item 2, .set 3 7, .del 1, .item 1, .len]).2 =
    [.value 100, .value 100, .none, .none, .value 101, .number 3] := by decide +kernel

/-- Disagreement: with a factory, `k in d` is always true, and adds the key, where Python says that the key is not there. -/
theorem contains_adds (d : Dict K V) (f : Nat → V) (hf : d.factory = some f) (k : K) (hk : find d.entries k = none) :
    step d (.contains k) = ({ d with entries := assign d.entries k (f d.calls), calls := d.calls + 1 }, .bool true) ∧
    python d (.contains k) = (d, .bool false) := by
  simp [step, python, contains, getitem, hf, hk]

example : (step sample (.contains 2)).1.entries = [(1, 10), (2, 100)] ∧ (step sample (.contains 2)).2 = .bool true ∧
    (python sample (.contains 2)).2 = .bool false := by decide +kernel

/-- Disagreement: so it is with `get` and `setdefault`, which do not give the default that they are called with; and `pop`, which does not fail, nor give the
default. -/
theorem defaults_not_used (d : Dict K V) (f : Nat → V) (hf : d.factory = some f) (k : K) (v : V) (hk : find d.entries k = none) :
    (step d (.get k v)).2 = .value (f d.calls) ∧ (python d (.get k v)).2 = .value v ∧
    (step d (.setdefault k v)).2 = .value (f d.calls) ∧ (python d (.setdefault k v)).2 = .value v ∧
    (step d (.popDefault k v)).2 = .value (f d.calls) ∧ (python d (.popDefault k v)).2 = .value v ∧
    (step d (.pop k)).2 = .value (f d.calls) ∧ (python d (.pop k)).2 = .keyError := by
  simp [step, python, get, setdefault, pop, getitem, hf, hk]

example : (step sample (.get 2 5)).2 = .value 100 ∧ (python sample (.get 2 5)).2 = .value 5 ∧ (step sample (.get 2 5)).1.entries.length = 2 := by
  decide +kernel

theorem find_head (k : K) (v : V) (l : List (K × V)) : find ((k, v) :: l) k = some v := by simp [find]

/-- `popitem` does what Python's does if there is at most one entry. -/
theorem popitem_partial (d : Dict K V) (h : d.entries.length ≤ 1) : step d .popitem = python d .popitem := by
  obtain ⟨l, f, c⟩ := d
  match l, h with
  | [], _ => rfl
  | [(k, v)], _ => simp [step, python, popitem, getitem, delitem, find]
  | _ :: _ :: _, h => simp at h

example : (step ⟨[(1, 10)], none, 0⟩ (.popitem : Op Nat Nat)).1.entries = [] := by decide +kernel

/-- Disagreement: `popitem` takes the first entry, where Python takes the last. -/
theorem popitem_first (d : Dict K V) (k j : K) (v w : V) (l : List (K × V)) (hd : d.entries = (k, v) :: l ++ [(j, w)]) :
    step d .popitem = ({ d with entries := remove d.entries k }, .pair k v) ∧
    python d .popitem = ({ d with entries := remove d.entries j }, .pair j w) := by
  constructor
  · simp only [step, popitem, hd, List.cons_append]
    simp only [getitem, delitem, hd, List.cons_append, find_head]
  · simp only [python, hd, List.getLast?_append, List.getLast?_singleton, Option.some_or]

example : (step ⟨[(1, 10), (2, 20)], none, 0⟩ (.popitem : Op Nat Nat)).2 = .pair 1 10 ∧
    (python ⟨[(1, 10), (2, 20)], none, 0⟩ (.popitem : Op Nat Nat)).2 = .pair 2 20 := by decide +kernel

end Verif.DefaultDicts
