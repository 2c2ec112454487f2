import Verif.Search.Spec
import Verif.Explore.Model
/-
What the parts of a comparison do on one concrete input, with no search tree in sight, and what it means that the executions found
account for an input.
-/
namespace Verif.Explore
open Verif.Search

variable {W : World}

/-- How a part ends on a concrete input; `illegal` when the input violates a constraint added on the way. -/
inductive End (R : Type) where
  | ret (r : R)
  | fail
  | gaveUp
  | illegal

/-- What a part can do on the concrete input `i`. -/
inductive Does {A R : Type} (F : Fun W A R) (i : W.Inp) : F.S → End R → Prop
  | ret {s r} : F.act s = .ret r → Does F i s (.ret r)
  | fail {s} : F.act s = .fail → Does F i s .fail
  | giveUp {s} : F.act s = .giveUp → Does F i s .gaveUp
  | ask {s e k o} : F.act s = .ask e k → Does F i (k (W.holds e i)) o → Does F i s o
  | realize {s x k o} : F.act s = .realize x k → Does F i (k (W.value x i)) o → Does F i s o
  | fork {s k o} (b : Bool) : F.act s = .fork k → Does F i (k b) o → Does F i s o
  | assume {s e s' o} : F.act s = .assume e s' → W.holds e i = true → Does F i s' o → Does F i s o
  | illegal {s e s'} : F.act s = .assume e s' → W.holds e i = false → Does F i s .illegal
  | cap {s s' o} : F.act s = .cap s' → Does F i s' o → Does F i s o

/-- The outcome of a call that ended, for the comparison. -/
def End.outcome {R : Type} : End R → Option (Option R)
  | .ret r => some (some r)
  | .fail => some none
  | _ => none

/-- On input `i` the arguments are `a`, and the calls of the two functions with them end with `r1` and `r2`. -/
def Calls (M : Pair W) (i : W.Inp) (a : M.A) (r1 r2 : Option M.R) : Prop :=
  Does M.gen i (M.gen.start ()) (.ret a) ∧
  (∃ e, Does M.fn1 i (M.fn1.start a) e ∧ e.outcome = some r1) ∧
  ∃ e, Does M.fn2 i (M.fn2.start a) e ∧ e.outcome = some r2

/-- Input `i` is found to be no legal input, in one of the parts. -/
def Illegal (M : Pair W) (i : W.Inp) : Prop :=
  Does M.gen i (M.gen.start ()) .illegal ∨
  (∃ a, Does M.gen i (M.gen.start ()) (.ret a) ∧ (Does M.fn1 i (M.fn1.start a) .illegal ∨
    (∃ e r1, Does M.fn1 i (M.fn1.start a) e ∧ e.outcome = some r1 ∧ Does M.fn2 i (M.fn2.start a) .illegal))) ∨
  ∃ a r1 r2, Calls M i a r1 r2 ∧ Does M.same i (M.same.start (r1, r2)) .illegal

/-- No arguments are made for input `i`: it is ignored. -/
def Ignored (M : Pair W) (i : W.Inp) : Prop := Does M.gen i (M.gen.start ()) .fail

/-- Some sequence of answers, not necessarily those of a single input, makes a part fail. -/
inductive MayFail {A R : Type} (F : Fun W A R) : F.S → Prop
  | fail {s} : F.act s = .fail → MayFail F s
  | ask {s e k} (b : Bool) : F.act s = .ask e k → MayFail F (k b) → MayFail F s
  | realize {s x k} (v : W.V) : F.act s = .realize x k → MayFail F (k v) → MayFail F s
  | fork {s k} (b : Bool) : F.act s = .fork k → MayFail F (k b) → MayFail F s
  | assume {s e s'} : F.act s = .assume e s' → MayFail F s' → MayFail F s
  | cap {s s'} : F.act s = .cap s' → MayFail F s' → MayFail F s

/-- The analyses `K` of executed paths account for input `i`, when the program is in state `s`: the run of `i` ends with one of them;
or `K` has the analysis of a path that was cut short; or `i` is no legal input; or the run gets to a point where the search was
detached, after which one of them was the analysis of one possible continuation. -/
inductive Accounted (P : Prog W) (K : Analysis → Prop) (i : W.Inp) : P.S → Prop
  | cut {s} : K .unknown → Accounted P K i s
  | done {s r a} : P.act s = .done r a → K a → Accounted P K i s
  | ask {s e k} : P.act s = .ask e k → Accounted P K i (k (W.holds e i)) → Accounted P K i s
  | realize {s x k} : P.act s = .realize x k → Accounted P K i (k (W.value x i)) → Accounted P K i s
  | fork {s k} (b : Bool) : P.act s = .fork k → Accounted P K i (k b) → Accounted P K i s
  | assume {s e s'} : P.act s = .assume e s' → W.holds e i = true → Accounted P K i s' → Accounted P K i s
  | excluded {s e s'} : P.act s = .assume e s' → W.holds e i = false → Accounted P K i s
  | cap {s s'} : P.act s = .cap s' → Accounted P K i s' → Accounted P K i s
  | detached {s s' a} : P.act s = .detach s' → Reach P s' a → K a → Accounted P K i s

end Verif.Explore
