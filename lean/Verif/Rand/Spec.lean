import Verif.Rand.Model

/-! What programs rely on when they use random generators. -/
namespace Verif.Rand

/-- A value lies in the range of a request. -/
def InRange : Req → Rat → Prop
  | .random, q => 0 ≤ q ∧ q < 1
  | .below cap, q => 0 ≤ q ∧ q < cap ∧ q.den = 1

/-- randomlib.py 78-92: the constraints on the values that the solver chooses. -/
def Oracle.Obeys (o : Oracle) : Prop :=
  (∀ n, ∃ q, o.fresh n .random = .float q ∧ 0 ≤ q ∧ q < 1) ∧
  (∀ n cap, 0 < cap → ∃ k, o.fresh n (.below cap) = .int k ∧ 0 ≤ k ∧ k < cap)

/-- The requests that generator `g` gets in a history. -/
def asked (g : Nat) : List Event → List Req
  | [] => []
  | .ask g' r :: es => if g' = g then r :: asked g es else asked g es
  | _ :: es => asked g es

/-- The answers that generator `g` gives. -/
def answers (g : Nat) : List Event → List Out → List Out
  | .ask g' _ :: es, x :: xs => if g' = g then x :: answers g es xs else answers g es xs
  | _ :: es, _ :: xs => answers g es xs
  | _, _ => []

/-- Generators that share values ask for the same thing at the same position, namely for `R i` at position `i`. -/
def Follows (o : Oracle) (R : Nat → Req) (w : World) : List Event → Prop
  | [] => True
  | e :: es => (∀ (g i : Nat) (r : Req), e = .ask g r → w.idx[g]? = some i → r = R i) ∧
      Follows o R (step o w e).2 es

/-- The members of Python's `range(start, stop, step)`. -/
def InPyRange (ret start stop step : Int) : Prop :=
  ∃ k : Nat, ret = start + k * step ∧ (if 0 < step then ret < stop else stop < ret)

end Verif.Rand
