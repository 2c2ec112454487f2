import Verif.Evals.Model
/-
When `eval` does what Python's does.
-/
namespace Verif.Evals

variable (builtins : Nat → Option Nat)

/-- `eval` does what Python's does, for all expressions, if locals are given, or nothing is; or if the caller's locals are the globals that are given. -/
theorem eval_partial (cl cg : Nat) (h : Heap) (e : Expr) (g l : Option Nat) (hgl : g = none ∨ l ≠ none ∨ g = some cl) :
    eval builtins cl cg h e g l = pyEval builtins cl cg h e g l := by
  cases l with
  | some l => cases g <;> rfl
  | none =>
    cases g with
    | none => rfl
    | some g =>
      rcases hgl with hg | hg | hg
      · cases hg
      · exact absurd rfl hg
      · injection hg with hg; subst hg; rfl

/-- The names in an expression. -/
def names : Expr → List Nat
  | .num _ => []
  | .name x => [x]
  | .walrus x e => x :: names e
  | .add e f => names e ++ names f

/-- No assignments. -/
def Pure : Expr → Prop
  | .num _ => True
  | .name _ => True
  | .walrus _ _ => False
  | .add e f => Pure e ∧ Pure f

theorem value_pure (cl g : Nat) (h : Heap) : ∀ e : Expr, Pure e → (∀ x ∈ names e, h cl x = none) →
    value builtins cl g h e = value builtins g g h e ∧ (value builtins g g h e).1 = h
  | .num n, _, _ => ⟨rfl, rfl⟩
  | .name x, _, hn => by
    refine ⟨?_, rfl⟩
    have hx := hn x (by simp [names])
    simp only [value, hx]
    cases h g x <;> rfl
  | .walrus x e, hp, _ => hp.elim
  | .add e f, hp, hn => by
    obtain ⟨i1, i2⟩ := value_pure cl g h e hp.1 fun x hx => hn x (by simp [names, hx])
    obtain ⟨j1, j2⟩ := value_pure cl g h f hp.2 fun x hx => hn x (by simp [names, hx])
    simp only [value, i1]
    cases he : value builtins g g h e with
    | mk h' r =>
      rw [he] at i2
      simp only at i2
      subst i2
      cases r with
      | none => exact ⟨rfl, rfl⟩
      | some v =>
        simp only [j1]
        refine ⟨trivial, ?_⟩
        cases hf : value builtins g g h' f with
        | mk h'' r =>
          rw [hf] at j2
          cases r <;> exact j2

/-- If only globals are given, `eval` gives what Python's gives for expressions without assignments whose names are not local names of the caller. -/
theorem globals_only_partial (cl cg g : Nat) (h : Heap) (e : Expr) (hp : Pure e) (hn : ∀ x ∈ names e, h cl x = none) :
    eval builtins cl cg h e (some g) none = pyEval builtins cl cg h e (some g) none :=
  (value_pure builtins cl g h e hp hn).1

/-- Dictionary 0 is of the caller's locals, with the name 5; dictionary 2 is given, with the names 5 and 6. -/
def sample : Heap := fun d x => if d = 0 ∧ x = 5 then some 10 else if d = 2 ∧ x = 5 then some 20 else if d = 2 ∧ x = 6 then some 30 else none

example : (eval (fun _ => none) 0 1 sample (.add (.name 6) (.num 1)) (some 2) none).2 = some 31 ∧
    (pyEval (fun _ => none) 0 1 sample (.add (.name 6) (.num 1)) (some 2) none).2 = some 31 := by decide +kernel

example : (eval (fun _ => none) 0 1 sample (.name 5) (some 2) (some 2)).2 = some 20 := by decide +kernel

/-- Disagreement: if only globals are given, local names of the caller hide those in the globals: `eval("x", {"x": 1})` is the caller's `x`. -/
theorem caller_hides (cl cg g x a : Nat) (h : Heap) (ha : h cl x = some a) :
    (eval builtins cl cg h (.name x) (some g) none).2 = some a ∧
    (pyEval builtins cl cg h (.name x) (some g) none).2 = (h g x).or (builtins x) := by
  refine ⟨?_, ?_⟩
  · simp [eval, scopes, pyEval, pyScopes, value, ha]
  · simp only [pyEval, pyScopes, value]
    cases h g x <;> rfl

example : (eval (fun _ => none) 0 1 sample (.name 5) (some 2) none).2 = some 10 ∧ (pyEval (fun _ => none) 0 1 sample (.name 5) (some 2) none).2 = some 20 := by
  decide +kernel

/-- Disagreement: and assignments in the expression do not reach the globals that are given. -/
theorem assignment_elsewhere (cl cg g x n : Nat) (h : Heap) (hg : g ≠ cl) :
    (eval builtins cl cg h (.walrus x (.num n)) (some g) none).1 g x = h g x ∧
    (pyEval builtins cl cg h (.walrus x (.num n)) (some g) none).1 g x = some n := by
  simp [eval, scopes, pyEval, pyScopes, value, put, hg]

example : (eval (fun _ => none) 0 1 sample (.walrus 7 (.num 3)) (some 2) none).1 2 7 = none ∧
    (pyEval (fun _ => none) 0 1 sample (.walrus 7 (.num 3)) (some 2) none).1 2 7 = some 3 := by decide +kernel

end Verif.Evals
