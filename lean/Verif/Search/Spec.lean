import Verif.Search.Model
/-
What the program under analysis does on one concrete input, with no search tree in sight, and
what is asked of the solver.  Used to state the properties of the search.
-/
namespace Verif.Search

/-- `Runs P i s o`: on the concrete input `i` the program started in `s` can end with `o`.
`some a` is an ordinary end with analysis `a`; `none` means that `i` violates a constraint the
tool adds while building its inputs, so `i` is not a legal input.  A `fork` may go either way. -/
inductive Runs {W : World} (P : Prog W) (i : W.Inp) : P.S → Option Analysis → Prop
  | done {s r a} : P.act s = .done r a → Runs P i s (some a)
  | ask {s e k o} : P.act s = .ask e k → Runs P i (k (W.holds e i)) o → Runs P i s o
  | realize {s x k o} : P.act s = .realize x k → Runs P i (k (W.value x i)) o → Runs P i s o
  | fork {s k o} (b : Bool) : P.act s = .fork k → Runs P i (k b) o → Runs P i s o
  | assume {s e s' o} : P.act s = .assume e s' → W.holds e i = true → Runs P i s' o → Runs P i s o
  | excluded {s e s'} : P.act s = .assume e s' → W.holds e i = false → Runs P i s none
  | cap {s s' o} : P.act s = .cap s' → Runs P i s' o → Runs P i s o
  | detach {s s' o} : P.act s = .detach s' → Runs P i s' o → Runs P i s o

/-- An end that does not count against the contract: an illegal input, an ignored path
(precondition not met), or a confirmed one. -/
def Fine : Option Analysis → Prop
  | none => True
  | some a => a.status = none ∨ a.status = some .confirmed

/-- An end that is a counterexample. -/
def Bad : Option Analysis → Prop
  | none => False
  | some a => a.status = some .refuted

/-- An input satisfies a list of constraints. -/
def Meets {W : World} (i : W.Inp) (pc : List (W.E × Bool)) : Prop :=
  ∀ c ∈ pc, W.holds c.1 i = c.2

/-- `unsat` is only answered when no input satisfies the constraints. -/
def Env.UnsatSound {W : World} (env : Env W) : Prop :=
  ∀ pc, env.solve pc = .unsat → ∀ i : W.Inp, ¬ Meets i pc

/-- `sat` is only answered when some input satisfies the constraints, and the model is such an
input. -/
def Env.SatSound {W : World} (env : Env W) : Prop :=
  ∀ pc, env.solve pc = .sat → ∃ i : W.Inp, Meets i pc ∧ ∀ x, W.value x i = env.model pc x

/-- Some sequence of answers, not necessarily those of a single input, leads from `s` to an end
with analysis `a`. -/
inductive Reach {W : World} (P : Prog W) : P.S → Analysis → Prop
  | done {s r a} : P.act s = .done r a → Reach P s a
  | ask {s e k a} (b : Bool) : P.act s = .ask e k → Reach P (k b) a → Reach P s a
  | realize {s x k a} (v : W.V) : P.act s = .realize x k → Reach P (k v) a → Reach P s a
  | fork {s k a} (b : Bool) : P.act s = .fork k → Reach P (k b) a → Reach P s a
  | assume {s e s' a} : P.act s = .assume e s' → Reach P s' a → Reach P s a
  | cap {s s' a} : P.act s = .cap s' → Reach P s' a → Reach P s a
  | detach {s s' a} : P.act s = .detach s' → Reach P s' a → Reach P s a

/-- After `detach_path` only one continuation is explored and its analysis stands for all inputs
that got there.  This asks that a good analysis there is right for every input. In
`attempt_call` (core.py:1588-1604, 1613-1622, 1640-1656, 1661-1676) everything after
`detach_path` returns REFUTED, so the condition holds unless the counterexample printing itself
is ignored. -/
def DetachUniform {W : World} (P : Prog W) : Prop :=
  ∀ s s', P.act s = .detach s' → ∀ a, Reach P s' a → Fine (some a) →
    ∀ i : W.Inp, ∃ o, Runs P i s' o ∧ Fine o

/-- The program can be in state `s` after decisions that added the constraints `pc`. -/
inductive At {W : World} (P : Prog W) (s0 : P.S) : P.S → List (W.E × Bool) → Prop
  | start : At P s0 s0 []
  | ask {s pc e k} (b : Bool) : At P s0 s pc → P.act s = .ask e k → At P s0 (k b) ((e, b) :: pc)
  | askKnown {s pc e k b} : At P s0 s pc → P.act s = .ask e k → (e, b) ∈ pc → At P s0 (k b) pc
  | realize {s pc x k} (v : W.V) : At P s0 s pc → P.act s = .realize x k →
      At P s0 (k v) ((W.eqE x v, true) :: pc)
  | another {s pc x k} (v : W.V) : At P s0 s pc → P.act s = .realize x k →
      At P s0 s ((W.eqE x v, false) :: pc)
  | fork {s pc k} (b : Bool) : At P s0 s pc → P.act s = .fork k → At P s0 (k b) pc
  | assume {s pc e s'} : At P s0 s pc → P.act s = .assume e s' → At P s0 s' ((e, true) :: pc)
  | assumeKnown {s pc e s'} : At P s0 s pc → P.act s = .assume e s' → (e, true) ∈ pc →
      At P s0 s' pc
  | cap {s pc s'} : At P s0 s pc → P.act s = .cap s' → At P s0 s' pc
  | detach {s pc s'} : At P s0 s pc → P.act s = .detach s' → At P s0 s' pc

/-- The constraints a path adds by itself never contradict what the path already knows. -/
def AddsConsistent {W : World} (P : Prog W) (s0 : P.S) : Prop :=
  ∀ s pc e s', At P s0 s pc → P.act s = .assume e s' → (∃ i : W.Inp, Meets i pc) →
    ∃ i : W.Inp, Meets i ((e, true) :: pc)

/-- The iterations made by the loop, in order, and the final tree.  Same control flow as
`explore`, keeping the outcomes (see `explore_history`). -/
def history {W : World} (P : Prog W) (s0 : P.S) :
    List (List (Env W)) → Tree W.E W.V → Except Err (List (Out W.E W.V) × Tree W.E W.V)
  | [], root => .ok ([], root)
  | script :: rest, root =>
    match iter P script root s0 [] [] false with
    | .error e => .error e
    | .ok o =>
      let (root', st, exhausted) := bubble root o
      if exhausted || decide (st = some .refuted) then .ok ([o], root')
      else (history P s0 rest root').map fun r => (o :: r.1, r.2)

/-- The program has at most `n` different decision paths for inputs in `A`. For a realized
expression, `vs` lists the values it can take there. -/
inductive PathBound {W : World} (P : Prog W) : P.S → (W.Inp → Prop) → Nat → Prop
  | done {s A r a} : P.act s = .done r a → PathBound P s A 1
  | ask {s A e k m n} : P.act s = .ask e k →
      PathBound P (k true) (fun i => A i ∧ W.holds e i = true) m →
      PathBound P (k false) (fun i => A i ∧ W.holds e i = false) n → PathBound P s A (m + n)
  | realize {s A x k} (vs : List W.V) (c : W.V → Nat) : P.act s = .realize x k →
      (∀ i, A i → W.value x i ∈ vs) →
      (∀ v ∈ vs, PathBound P (k v) (fun i => A i ∧ W.value x i = v) (c v)) →
      PathBound P s A (1 + (vs.map c).sum)
  | fork {s A k m n} : P.act s = .fork k → PathBound P (k true) A m → PathBound P (k false) A n →
      PathBound P s A (m + n)
  | assume {s A e s' n} : P.act s = .assume e s' →
      PathBound P s' (fun i => A i ∧ W.holds e i = true) n → PathBound P s A n
  | cap {s A s' n} : P.act s = .cap s' → PathBound P s' A n → PathBound P s A n
  | detach {s A s'} : P.act s = .detach s' → PathBound P s A 1

/-- The part of the tree below a sequence of decisions. -/
def below {E V : Type} : Tree E V → List Bool → Option (Tree E V)
  | t, [] => some t
  | .worst _ _ _ p n _ _, b :: q => if b then below p q else below n q
  | .par p n _ _, b :: q => if b then below p q else below n q
  | .detached c _ _, _ :: q => below c q
  | _, _ :: _ => none

/-- The worst of two outcomes: REFUTED is worse than UNKNOWN, which is worse than CONFIRMED; a
path that was ignored does not count. -/
def worst : Option Status → Option Status → Option Status
  | none, b => b
  | a, none => a
  | some .refuted, _ => some .refuted
  | _, some .refuted => some .refuted
  | some .unknown, _ => some .unknown
  | _, some .unknown => some .unknown
  | some .confirmed, some .confirmed => some .confirmed

/-- A path that returned got past all preconditions. -/
def PassedPre {E V : Type} (o : Out E V) : Prop :=
  o.returned = true ∧ o.leaf.failPre = none ∧ o.leaf.status ≠ none

/-- What `attempt_call` can produce: an analysis naming a failing precondition is an ignored
path, and a path that ended by an exception of the tool is not CONFIRMED
(core.py:1537-1564, 1306-1333). -/
def Honest {W : World} (P : Prog W) : Prop :=
  ∀ s r a, P.act s = .done r a →
    (a.failPre ≠ none → a.status = none) ∧ (r = false → a.status ≠ some .confirmed)

end Verif.Search
