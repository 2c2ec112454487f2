import Verif.Outcome.Model

/-! What it means that values are structurally equal, NaN being equal to itself. -/
namespace Verif.Outcome

mutual
/-- A key with all NaN objects made one. -/
def Key.norm : Key → Key
  | .nan _ => .nan 0
  | .tuple ks => .tuple (normAll ks)
  | k => k
def normAll : List Key → List Key
  | [] => []
  | k :: ks => k.norm :: normAll ks
end

/-- Structural equality.  Dicts are equal if they have the same keys and equal values for them, sets if they have the
same items; iterables that are not collections if they yield equal values. -/
inductive Same : Val → Val → Prop where
  | none : Same .none .none
  | num (x : Rat) : Same (.num x) (.num x)
  | inf (n : Bool) : Same (.inf n) (.inf n)
  | nan (i j : Nat) : Same (.nan i) (.nan j)
  | str (s : List Char) : Same (.str s) (.str s)
  | bytes (s : List Nat) : Same (.bytes s) (.bytes s)
  | list (xs ys : List Val) (hl : xs.length = ys.length)
      (h : ∀ (i : Nat) (x y : Val), xs[i]? = some x → ys[i]? = some y → Same x y) : Same (.list xs) (.list ys)
  | tuple (xs ys : List Val) (hl : xs.length = ys.length)
      (h : ∀ (i : Nat) (x y : Val), xs[i]? = some x → ys[i]? = some y → Same x y) : Same (.tuple xs) (.tuple ys)
  | dict (a b : List (Key × Val))
      (hk : ∀ k : Key, k ∈ a.map (fun p => p.1.norm) ↔ k ∈ b.map (fun p => p.1.norm))
      (h : ∀ (k k' : Key) (v v' : Val), (k, v) ∈ a → (k', v') ∈ b → k.norm = k'.norm → Same v v') :
      Same (.dict a) (.dict b)
  | set (a b : List Key) (hk : ∀ k : Key, k ∈ a.map Key.norm ↔ k ∈ b.map Key.norm) : Same (.set a) (.set b)
  | iter (t i t' i' : Nat) (xs ys : List Val) (hl : xs.length = ys.length)
      (h : ∀ (i : Nat) (x y : Val), xs[i]? = some x → ys[i]? = some y → Same x y) :
      Same (.iter t i xs) (.iter t' i' ys)
  | other (t i : Nat) : Same (.other t i) (.other t i)

mutual
/-- A value as Python can build it (the keys of a dict and the items of a set are distinct), made of data only, with
no NaN among keys and items of sets. -/
def Plain : Val → Prop
  | .list xs => PlainAll xs
  | .tuple xs => PlainAll xs
  | .dict items => (items.map (·.1)).Nodup ∧ (∀ p ∈ items, p.1.norm = p.1) ∧ PlainItems items
  | .set items => items.Nodup ∧ ∀ k ∈ items, k.norm = k
  | .iter _ _ _ => False
  | .other _ _ => False
  | .unrealizable => False
  | _ => True
def PlainAll : List Val → Prop
  | [] => True
  | x :: xs => Plain x ∧ PlainAll xs
def PlainItems : List (Key × Val) → Prop
  | [] => True
  | (_, v) :: rest => Plain v ∧ PlainItems rest
end

/-- The exceptions that end two calls are equivalent in a mode: both or neither; and if both, of the same type, or of
the same type and with the same message, as the mode demands. -/
def ExcSame (mode : Mode) (e1 e2 : Option Raised) : Prop :=
  (e1.isSome ↔ e2.isSome) ∧ ∀ x y, e1 = some x → e2 = some y →
    (mode = .sameType → x.type = y.type) ∧ (mode = .typeAndMessage → x.repr = y.repr)

/-- The value returned; `None` if there is none. -/
def Ended.value : Ended → Val
  | .returned v => v
  | _ => .none

/-- The exception raised. -/
def Ended.exc : Ended → Option Raised
  | .raised e => some e
  | _ => none

/-- The call ended with a value or an exception of the user's. -/
def Ended.Proper : Ended → Prop
  | .returned _ => True
  | .raised _ => True
  | _ => False

end Verif.Outcome
