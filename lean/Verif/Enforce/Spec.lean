import Verif.Enforce.Model
/-
What enforcement of contracts means, without the bookkeeping of the code: `hush` is the list of
functions whose conditions are being evaluated further up, whose calls go unguarded.
-/
namespace Verif.Enforce

section
variable {σ V E O : Type}

/-- Code `p`, started in state `s` while `b` holds, ends with `o` in state `s'`. -/
def Runs (c : Code σ V E O) (b : Busy) (s : σ) (p : Prog σ V E) (o : Out V E) (s' : σ) : Prop :=
  ∃ n b', run c n b s p = some (o, s', b')

/-- The condition ends with a true value. -/
def Holds (c : Code σ V E O) (b : Busy) (s : σ) (p : Prog σ V E) (s' : σ) : Prop :=
  ∃ v, Runs c b s p (.val v) s' ∧ c.truthy v = true

/-- The condition ends with a false value. -/
def Fails (c : Code σ V E O) (b : Busy) (s : σ) (p : Prog σ V E) (s' : σ) : Prop :=
  ∃ v, Runs c b s p (.val v) s' ∧ c.truthy v = false

/-- All conditions hold, one after the other. -/
def AllHold (c : Code σ V E O) (b : Busy) : σ → List (Prog σ V E) → σ → Prop
  | s, [], s' => s' = s
  | s, p :: ps, s' => ∃ t, Holds c b s p t ∧ AllHold c b t ps s'

/-- The first condition that does not hold is number `i`, and it is false. -/
def FirstFalse (c : Code σ V E O) (b : Busy) (s : σ) (ps : List (Prog σ V E)) (i : Nat) (s' : σ) : Prop :=
  ∃ p t, ps[i]? = some p ∧ AllHold c b s (ps.take i) t ∧ Fails c b t p s'

/-- The first condition that does not hold raises `e`. -/
def FirstRaises (c : Code σ V E O) (b : Busy) (s : σ) (ps : List (Prog σ V E)) (e : Exc E) (s' : σ) : Prop :=
  ∃ i p t, ps[i]? = some p ∧ AllHold c b s (ps.take i) t ∧ Runs c b t p (.exc e) s'

/-- The preconditions, applied to the bound arguments. -/
def Conds.pres (c : Conds σ V E O) (args : V) : List (Prog σ V E) := c.pre.map (fun p => p args)

/-- The postconditions, applied to old values, bound arguments and the result; one that cannot be
evaluated counts as true. -/
def Conds.posts (c : Conds σ V E O) (yes : V) (old : O) (args r : V) : List (Prog σ V E) :=
  c.post.map (fun p => match p with
    | none => .ret yes
    | some p => p old args r)

/-- A call of `f` by itself. -/
def justCall (f : Fn) (a : V) : Prog σ V E :=
  .call true f a (fun o => match o with
    | .val v => .ret v
    | .exc e => .raise e)

/-- Failures of contracts. -/
def Exc.contract : Exc E → Bool
  | .pre _ _ => true
  | .post _ _ => true
  | .mutableArgs _ => true
  | _ => false

/-- Code that does not catch failures of contracts. -/
inductive Honest : Prog σ V E → Prop where
  | ret (v : V) : Honest (.ret v)
  | raise (e : Exc E) : Honest (.raise e)
  | get (k : σ → Prog σ V E) (h : ∀ s, Honest (k s)) : Honest (.get k)
  | put (s : σ) (k : Prog σ V E) (h : Honest k) : Honest (.put s k)
  | call (w : Bool) (f : Fn) (a : V) (k : Out V E → Prog σ V E) (h : ∀ o, Honest (k o))
      (pass : ∀ e : Exc E, e.contract = true → k (.exc e) = .raise e) : Honest (.call w f a k)

/-- A condition that changes nothing and raises nothing, except failures of contracts. -/
def Quiet (c : Code σ V E O) (p : Prog σ V E) : Prop :=
  ∀ b s o s', Runs c b s p o s' → s' = s ∧ ∀ e, o = .exc e → e.contract = true

/-- A program in which no code catches contract failures, all conditions are quiet, and a function whose
arguments do not fit its signature raises the `TypeError` itself. -/
structure Decent (c : Code σ V E O) : Prop where
  honest : ∀ f a, Honest (c.body f a)
  fits : ∀ f cs a, c.conds f = some cs → cs.bind a = none → c.body f a = .raise (.bad f)
  pre : ∀ f cs, c.conds f = some cs → ∀ p ∈ cs.pre, ∀ args, Quiet c (p args)
  post : ∀ f cs, c.conds f = some cs → ∀ p, some p ∈ cs.post → ∀ old args r, Quiet c (p old args r)

end

/-- Python's `type.__call__`, or the metaclass's own. -/
def pyConstruct {V R E : Type} (c : Class V R E) (a : V) : Out R E :=
  match c.metaCall with
  | some m => m a
  | none =>
    match c.new a with
    | .exc e => .exc e
    | .val r =>
      match c.isInstance r, c.init r a with
      | true, some e => .exc e
      | _, _ => .val r

end Verif.Enforce
