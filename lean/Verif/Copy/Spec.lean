import Verif.Copy.Model

/-! Object graphs, and what a copy should look like. -/
namespace Verif.Copy

/-- Object `b` can be reached from `a`. -/
def Reach (heap : List Obj) (a b : Nat) : Prop := ∃ path, resolve heap a path = some b

/-- How an object looks in the copy: as in the original, except that symbolic values are realized. -/
def Kind.copied (mode : Mode) : Kind → Kind
  | .sym v => if mode = .realize then .atom v else .sym v
  | k => k

/-- The object graphs considered, as Python has them: no dangling references; atoms, symbolic values and objects that
cannot be taken apart have no references that matter here; tuples and sets are made of objects that exist before, so
there is no cycle of only tuples and sets (`rank`).  Moreover there are no bound methods, and no set can be
reached from its items (see the disagreements). -/
structure Graph (heap : List Obj) : Prop where
  closed : ∀ (a : Nat) (o : Obj), heap[a]? = some o → ∀ k ∈ o.kids, k < heap.length
  leaf : ∀ (a : Nat) (o : Obj), heap[a]? = some o →
    (∃ v, o.kind = .atom v ∨ o.kind = .sym v ∨ o.kind = .locked v) → o.kids = []
  rank : ∃ rank : Nat → Nat, ∀ (a : Nat) (o : Obj), heap[a]? = some o → o.kind = .tuple ∨ o.kind = .set →
    ∀ k ∈ o.kids, rank k < rank a
  noMethod : ∀ (a : Nat) (o : Obj), heap[a]? = some o → ∀ fn, o.kind ≠ .method fn
  noSetCycle : ∀ (a : Nat) (o : Obj), heap[a]? = some o → o.kind = .set → ∀ k ∈ o.kids, ¬ Reach heap k a

end Verif.Copy
