/-
What Python's mutable sets do, stated without reference to CrossHair: a program holds several sets
(numbered in the order of creation), each a mathematical set, and changing one never changes another.
-/
namespace Verif.Sets

variable {A : Type}

/-- The elements of a set. -/
abbrev PySet (A : Type) := A → Prop

/-- `l` lists the elements of `s`, each once. -/
def Lists (s : PySet A) (l : List A) : Prop := l.Nodup ∧ ∀ x, x ∈ l ↔ s x

/-- Set operators. -/
inductive BinOp where
  | or | and | xor | sub
deriving DecidableEq, Repr

/-- What an operator means, elementwise. -/
def BinOp.Means : BinOp → Prop → Prop → Prop
  | .or, p, q => p ∨ q
  | .and, p, q => p ∧ q
  | .xor, p, q => (p ∧ ¬ q) ∨ (q ∧ ¬ p)
  | .sub, p, q => p ∧ ¬ q

/-- The set `s op t`. -/
def combine (op : BinOp) (s t : PySet A) : PySet A := fun x => op.Means (s x) (t x)

/-- The elements of an iterable. -/
def ofList (l : List A) : PySet A := fun x => x ∈ l

/-- Operations of a program that holds several mutable sets `s0`, `s1`, ... -/
inductive Op (A : Type) where
  | new (l : List A)                               -- `set(l)`
  | copy (i : Nat)                                 -- `si.copy()`
  | contains (i : Nat) (x : A)                     -- `x in si`
  | len (i : Nat)                                  -- `len(si)`
  | truth (i : Nat)                                -- `bool(si)`
  | iter (i : Nat)                                 -- `list(si)`
  | add (i : Nat) (x : A)                          -- `si.add(x)`
  | discard (i : Nat) (x : A)                      -- `si.discard(x)`
  | remove (i : Nat) (x : A)                       -- `si.remove(x)`
  | pop (i : Nat)                                  -- `si.pop()`
  | clear (i : Nat)                                -- `si.clear()`
  | update (i : Nat) (ls : List (List A))          -- `si.update(*ls)`
  | differenceUpdate (i : Nat) (l : List A)        -- `si.difference_update(l)`
  | intersectionUpdate (i : Nat) (l : List A)      -- `si.intersection_update(l)`
  | symmetricUpdate (i : Nat) (l : List A)         -- `si.symmetric_difference_update(l)`
  | inplace (op : BinOp) (i j : Nat)               -- `si |= sj` and so on
  | binary (op : BinOp) (i j : Nat)                -- `si | sj` and so on
  | frozen (op : BinOp) (i : Nat) (l : List A)     -- `si | frozenset(l)` and so on
  | rsub (i : Nat) (l : List A)                    -- `frozenset(l) - si`
  | method (op : BinOp) (i : Nat) (ls : List (List A))  -- `si.union(*ls)` and so on
  | le (i j : Nat)                                 -- `si <= sj`
  | lt (i j : Nat)                                 -- `si < sj`
  | ge (i j : Nat)                                 -- `si >= sj`
  | gt (i j : Nat)                                 -- `si > sj`
  | eq (i j : Nat)                                 -- `si == sj`
  | isdisjoint (i : Nat) (l : List A)              -- `si.isdisjoint(l)`

/-- What an operation shows. -/
inductive Obs (A : Type) where
  | set (i : Nat)      -- the set numbered `i`
  | bool (b : Bool)
  | num (n : Nat)
  | elems (l : List A)
  | elem (x : A)
  | done
  | keyError
  | recursionError
  | noSuchSet
deriving DecidableEq, Repr

/-- An observation that reads only: the answer is right. -/
def Asks (p : Prop) (o : Obs A) : Prop := ∃ b, o = .bool b ∧ (b = true ↔ p)

/-- `s` is contained in `t`. -/
def Sub (s t : PySet A) : Prop := ∀ x, s x → t x

/-- One operation on sets that exist: what may be seen, and the sets afterwards. -/
def StepOn (σ : List (PySet A)) (get : Nat → PySet A) : Op A → Obs A → List (PySet A) → Prop
  | .new l, o, σ' => σ' = σ ++ [ofList l] ∧ o = .set σ.length
  | .copy i, o, σ' => σ' = σ ++ [get i] ∧ o = .set σ.length
  | .contains i x, o, σ' => σ' = σ ∧ Asks (get i x) o
  | .len i, o, σ' => σ' = σ ∧ ∃ l, Lists (get i) l ∧ o = .num l.length
  | .truth i, o, σ' => σ' = σ ∧ Asks (∃ x, get i x) o
  | .iter i, o, σ' => σ' = σ ∧ ∃ l, Lists (get i) l ∧ o = .elems l
  | .add i x, o, σ' => σ' = σ.set i (fun y => get i y ∨ y = x) ∧ o = .done
  | .discard i x, o, σ' => σ' = σ.set i (fun y => get i y ∧ y ≠ x) ∧ o = .done
  | .remove i x, o, σ' =>
    (get i x ∧ σ' = σ.set i (fun y => get i y ∧ y ≠ x) ∧ o = .done) ∨ (¬ get i x ∧ σ' = σ ∧ o = .keyError)
  | .pop i, o, σ' =>
    (∃ x, get i x ∧ σ' = σ.set i (fun y => get i y ∧ y ≠ x) ∧ o = .elem x) ∨
    ((∀ x, ¬ get i x) ∧ σ' = σ ∧ o = .keyError)
  | .clear i, o, σ' => σ' = σ.set i (fun _ => False) ∧ o = .done
  | .update i ls, o, σ' => σ' = σ.set i (fun x => get i x ∨ ∃ l ∈ ls, x ∈ l) ∧ o = .done
  | .differenceUpdate i l, o, σ' => σ' = σ.set i (combine .sub (get i) (ofList l)) ∧ o = .done
  | .intersectionUpdate i l, o, σ' => σ' = σ.set i (combine .and (get i) (ofList l)) ∧ o = .done
  | .symmetricUpdate i l, o, σ' => σ' = σ.set i (combine .xor (get i) (ofList l)) ∧ o = .done
  | .inplace op i j, o, σ' => σ' = σ.set i (combine op (get i) (get j)) ∧ o = .done
  | .binary op i j, o, σ' => σ' = σ ++ [combine op (get i) (get j)] ∧ o = .set σ.length
  | .frozen op i l, o, σ' => σ' = σ ++ [combine op (get i) (ofList l)] ∧ o = .set σ.length
  | .rsub i l, o, σ' => σ' = σ ++ [combine .sub (ofList l) (get i)] ∧ o = .set σ.length
  | .method op i ls, o, σ' =>
    σ' = σ ++ [ls.foldl (fun s l => combine op s (ofList l)) (get i)] ∧ o = .set σ.length
  | .le i j, o, σ' => σ' = σ ∧ Asks (Sub (get i) (get j)) o
  | .lt i j, o, σ' => σ' = σ ∧ Asks (Sub (get i) (get j) ∧ ¬ Sub (get j) (get i)) o
  | .ge i j, o, σ' => σ' = σ ∧ Asks (Sub (get j) (get i)) o
  | .gt i j, o, σ' => σ' = σ ∧ Asks (Sub (get j) (get i) ∧ ¬ Sub (get i) (get j)) o
  | .eq i j, o, σ' => σ' = σ ∧ Asks (∀ x, get i x ↔ get j x) o
  | .isdisjoint i l, o, σ' => σ' = σ ∧ Asks (∀ x, ¬ (get i x ∧ x ∈ l)) o

/-- The sets an operation mentions. -/
def Op.uses : Op A → List Nat
  | .new _ => []
  | .copy i => [i] | .contains i _ => [i] | .len i => [i] | .truth i => [i] | .iter i => [i]
  | .add i _ => [i] | .discard i _ => [i] | .remove i _ => [i] | .pop i => [i] | .clear i => [i]
  | .update i _ => [i] | .differenceUpdate i _ => [i] | .intersectionUpdate i _ => [i]
  | .symmetricUpdate i _ => [i]
  | .inplace _ i j => [i, j] | .binary _ i j => [i, j]
  | .frozen _ i _ => [i] | .rsub i _ => [i] | .method _ i _ => [i]
  | .le i j => [i, j] | .lt i j => [i, j] | .ge i j => [i, j] | .gt i j => [i, j] | .eq i j => [i, j]
  | .isdisjoint i _ => [i]

/-- One operation; naming a set that was never created is not a program, and shows just that. -/
def SetStep (σ : List (PySet A)) (op : Op A) (o : Obs A) (σ' : List (PySet A)) : Prop :=
  if ∀ i ∈ op.uses, i < σ.length then StepOn σ (fun i => σ.getD i fun _ => False) op o σ'
  else σ' = σ ∧ o = .noSuchSet

/-- A whole history. -/
inductive SetRuns : List (PySet A) → List (Op A) → List (Obs A) → Prop
  | nil (σ) : SetRuns σ [] []
  | cons {σ σ' op ops o os} : SetStep σ op o σ' → SetRuns σ' ops os → SetRuns σ (op :: ops) (o :: os)

end Verif.Sets
