import Verif.Kinds.Model
/-
What conditions mean in the kinds of contracts.
-/
namespace Verif.Kinds

/-! ### `implies` -/

/-- The world that expressions are evaluated in: what parts without calls, calls and other operations give (`none`: an exception),
and which values are true. -/
structure Interp where
  atom : Nat → Option Nat
  call : Nat → List Nat → List Nat → Option Nat
  strict : Nat → List Nat → Option Nat
  truth : Nat → Bool
  /-- the value `True` -/
  tru : Nat

/-- The result (`none`: an exception), and the parts that were evaluated, in order. -/
abbrev Run (α : Type) := Option α × List Nat

/-- One after the other. -/
def Run.andThen {α β : Type} (r : Run α) (f : α → Run β) : Run β :=
  match r with
  | (none, log) => (none, log)
  | (some a, log) => ((f a).1, log ++ (f a).2)

mutual
/-- Python's evaluation. -/
def eval (I : Interp) : Expr → Run Nat
  | .atom n => (I.atom n, [n])
  | .call fn args kwargs => (evalAll I args).andThen fun vs => (evalAll I kwargs).andThen fun ws => (I.call fn vs ws, [])
  | .strict op parts => (evalAll I parts).andThen fun vs => (I.strict op vs, [])
  | .ifExp a b c => (eval I a).andThen fun v => if I.truth v then eval I b else eval I c
  | .tru => (some I.tru, [])
/-- Python's evaluation of parts from left to right. -/
def evalAll (I : Interp) : List Expr → Run (List Nat)
  | [] => (some [], [])
  | e :: es => (eval I e).andThen fun v => (evalAll I es).andThen fun vs => (some (v :: vs), [])
end

mutual
/-- What a condition is to mean: `implies(X, Y)` is true if `X` is false, and then `Y` is not evaluated; otherwise it is `Y`. -/
def meaning (I : Interp) : Expr → Run Nat
  | .atom n => (I.atom n, [n])
  | .call fn args kwargs =>
    if fn = 0 then meaningImplies I args
    else (meaningAll I args).andThen fun vs => (meaningAll I kwargs).andThen fun ws => (I.call fn vs ws, [])
  | .strict op parts => (meaningAll I parts).andThen fun vs => (I.strict op vs, [])
  | .ifExp a b c => (meaning I a).andThen fun v => if I.truth v then meaning I b else meaning I c
  | .tru => (some I.tru, [])
/-- `implies(X, Y)`; other numbers of arguments are errors. -/
def meaningImplies (I : Interp) : List Expr → Run Nat
  | [x, y] => (meaning I x).andThen fun v => if I.truth v then meaning I y else (some I.tru, [])
  | [] => (none, [])
  | [_] => (none, [])
  | _ :: _ :: _ :: _ => (none, [])
/-- The same for parts. -/
def meaningAll (I : Interp) : List Expr → Run (List Nat)
  | [] => (some [], [])
  | e :: es => (meaning I e).andThen fun v => (meaningAll I es).andThen fun vs => (some (v :: vs), [])
end

mutual
/-- All calls of `implies` have two arguments. -/
def TwoArgs : Expr → Prop
  | .atom _ => True
  | .call fn args kwargs => (fn = 0 → args.length = 2) ∧ TwoArgsAll args ∧ TwoArgsAll kwargs
  | .strict _ parts => TwoArgsAll parts
  | .ifExp a b c => TwoArgs a ∧ TwoArgs b ∧ TwoArgs c
  | .tru => True
/-- The same for parts. -/
def TwoArgsAll : List Expr → Prop
  | [] => True
  | e :: es => TwoArgs e ∧ TwoArgsAll es
end

/-! ### asserts -/

/-- A function that begins with string literals and assertions, has at least one assertion, and goes on with another statement. -/
structure Split (body lead : List Stmt) (s : Stmt) (rest : List Stmt) : Prop where
  split : body = lead ++ s :: rest
  leading : ∀ x ∈ lead, x.assert = true ∨ x.literal = true
  any : ∃ x ∈ lead, x.assert = true
  other : s.assert = false ∧ s.literal = false

/-- Statements are on lines of their own, one below the other. -/
def Below (body : List Stmt) : Prop := (∀ s ∈ body, s.first ≤ s.last) ∧ body.Pairwise fun s t => s.last < t.first

/-! ### deal -/

/-- How Python binds arguments to parameters (without defaults); `none` is the `TypeError`. -/
def bind : List Param → List Val → List (Nat × Val) → Option (List (Param × Val))
  | [], [], [] => some []
  | [], _, _ => none
  | p :: ps, args, kwargs =>
    match p.kind with
    | .posOnly => match args with
      | v :: args => (bind ps args kwargs).map ((p, v) :: ·)
      | [] => none
    | .posKw => match args with
      | v :: args => if (kwargs.lookup p.name).isSome then none else (bind ps args kwargs).map ((p, v) :: ·)
      | [] => match kwargs.lookup p.name with
        | some v => (bind ps [] (kwargs.filter fun e => e.1 ≠ p.name)).map ((p, v) :: ·)
        | none => none
    | .varPos => (bind ps [] kwargs).map ((p, .tuple args) :: ·)
    | .kwOnly => match kwargs.lookup p.name with
      | some v => (bind ps args (kwargs.filter fun e => e.1 ≠ p.name)).map ((p, v) :: ·)
      | none => none
    | .varKw => (bind ps args []).map ((p, .dict kwargs) :: ·)

/-! ### Registered contracts -/

/-- A call of `register_contract`, as far as `_add_contract` sees it. -/
structure Registration where
  fn : Nat
  contract : Contract

/-- A history of registrations; `ref` gives the signatures that the functions have themselves. -/
def register (ref : Nat → Option Sig) (reg : Registry) (rs : List Registration) : Registry :=
  rs.foldl (fun reg r => (addContract reg r.fn r.contract (ref r.fn)).1) reg

end Verif.Kinds
