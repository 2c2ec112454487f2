import Verif.Heap.Lemmas
/-
Properties of the heaps: C109 (aliasing) and C110 (old values).
-/
namespace Verif.Heap

variable {T V : Type}

/-! ### C109: one reference, one object -/

/-- C109: an object that was looked up is found again whenever it is looked up later, whatever was looked
up (through any snapshot) and changed in between: no second object is made. -/
theorem find_again {u : T → T → Bool} (hu : ∀ t, u t t = true) {w : World T V} (hw : Reachable u w)
    (r : Nat) (t : T) (v v' : V) (ops : List (Op T V)) :
    let first := w.find u r t headSnapshot v
    let later := runAll u first.2 ops
    later.find u r t headSnapshot v' = (first.1, later) := by
  have hi := hw.inv.find u r t headSnapshot v
  exact find_some (head_stays hi.ne (hi.runAll u ops).ne (Grows.runAll hi u ops) (found_after hw.inv hu r t v)) v'

/-- C109: lookups of different references give different objects, so that a change to one is not seen through the
other. -/
theorem find_apart {u : T → T → Bool} (hu : ∀ t, u t t = true) {w : World T V} (hw : Reachable u w)
    (r r' : Nat) (t t' : T) (v v' : V) (ops : List (Op T V)) (hr : r ≠ r') :
    let first := w.find u r t headSnapshot v
    let second := (runAll u first.2 ops).find u r' t' headSnapshot v'
    first.1 ≠ second.1 := by
  intro first second h
  have hi := hw.inv.find u r t headSnapshot v
  have hi2 := hi.runAll u ops
  have h1 := head_stays hi.ne hi2.ne (Grows.runAll hi u ops) (found_after hw.inv hu r t v)
  have h2 := found_after hi2 hu r' t' v'
  have hi3 := hi2.find u r' t' headSnapshot v'
  have h3 := head_stays hi2.ne hi3.ne (Grows.find hi2.ne u r' t' headSnapshot v') h1
  have h4 : (runAll u (w.find u r t headSnapshot v).2 ops |>.find u r' t' headSnapshot v').1 =
      (w.find u r t headSnapshot v).1 := h.symm
  rw [h4] at h2
  exact hr (search_inj hi3 h3 h2)

/-- C109: for references of one type, `is` is equality of references. -/
theorem is_iff {u : T → T → Bool} (hu : ∀ t, u t t = true) {w : World T V} (hw : Reachable u w)
    (r r' : Nat) (t : T) (v v' : V) (ops : List (Op T V)) :
    let first := w.find u r t headSnapshot v
    let second := (runAll u first.2 ops).find u r' t headSnapshot v'
    first.1 = second.1 ↔ r = r' := by
  refine ⟨fun h => ?_, fun h => ?_⟩
  · by_cases hr : r = r'
    · exact hr
    · exact absurd h (find_apart hu hw r r' t t v v' ops hr)
  · subst h
    have := find_again hu hw r t v v' ops
    simp only at this ⊢
    rw [this]

/-- C109: a new object has the contents that were made for it. -/
theorem find_new {u : T → T → Bool} {w : World T V} (r : Nat) (t : T) (s : Int) (v : V)
    (h : search u r t (w.heapAt s) = none) :
    (w.find u r t s v).2.mem.get (w.find u r t s v).1 = v := by
  rw [find_none h]; exact addValue_get_new w r t v

/-- Disagreement: a reference that was looked up as one type and then as another that does not unify
with the first gives a second object (find_key_in_heap, statespace.py:1144-1146): `a is b` is
false although the solver takes the references to be equal.  (C109 asks for one object for one reference.) -/
theorem two_types_two_objects : ∃ (u : Nat → Nat → Bool) (w : World Nat Nat), (∀ t, u t t = true) ∧ Reachable u w ∧
    ((w.find u 7 0 headSnapshot 10).2.find u 7 1 headSnapshot 20).1 ≠ (w.find u 7 0 headSnapshot 10).1 :=
  ⟨fun a b => decide (a = b), World.start ⟨fun _ => 0, 0⟩, by simp, .start _, by decide⟩

/-! ### C110: copies for old values -/

/-- C110: right after a checkpoint, an object known before is there twice: in the older heap as it was, and in the new
one as another object with the same contents. -/
theorem checkpoint_copies {u : T → T → Bool} {w : World T V} (hw : Reachable u w) (r : Nat) (t : T) (v : V) (a : Nat)
    (h : search u r t (w.heapAt headSnapshot) = some a) :
    let old := w.checkpoint.find u r t w.currentSnapshot v
    let new := w.checkpoint.find u r t headSnapshot v
    old = (a, w.checkpoint) ∧ new.2 = w.checkpoint ∧ new.1 ≠ a ∧
      w.checkpoint.mem.get a = w.mem.get a ∧ w.checkpoint.mem.get new.1 = w.mem.get a := by
  have hi := hw.inv
  obtain ⟨k, h1, h2⟩ := head_at hi.ne
  rw [h2] at h
  have hlen : 0 < w.heaps.length := List.length_pos_iff.2 hi.ne
  have hlast : w.heaps.getLast?.getD [] = k := by
    rw [List.getLast?_eq_getElem?, h1]; rfl
  have hb : ∀ e ∈ k, e.addr < w.mem.next := fun e he => by
    obtain ⟨p, hp⟩ := List.getElem?_of_mem he
    exact hi.bound _ p k e h1 hp
  obtain ⟨b, c1, c2, c3⟩ := copyHeap_search u r t w.mem k hb a h
  obtain ⟨e, he, _, hea⟩ := search_mem h
  have ha : a < w.mem.next := hea ▸ hb e he
  have hcp : w.checkpoint = ⟨w.heaps ++ [(copyHeap w.mem k).1], (copyHeap w.mem k).2⟩ := by
    unfold World.checkpoint; rw [hlast]
  have hold : search u r t (w.checkpoint.heapAt w.currentSnapshot) = some a := by
    have : w.currentSnapshot = ((w.heaps.length - 1 : Nat) : Int) := by
      unfold World.currentSnapshot; omega
    rw [this, heapAt_nat, hcp]
    simp only
    rw [List.getElem?_append_left (by omega), h1]
    exact h
  have hnew : search u r t (w.checkpoint.heapAt headSnapshot) = some b := by
    rw [hcp, heapAt_head]; exact c1
  intro old new
  have ho : old = (a, w.checkpoint) := find_some hold v
  have hn : new = (b, w.checkpoint) := find_some hnew v
  rw [hn]
  refine ⟨ho, rfl, by show b ≠ a; omega, ?_, ?_⟩
  · rw [hcp]; exact copyHeap_get _ _ _ ha
  · rw [hcp]; exact c2

/-- C110: what a call does to the objects that it gets cannot be seen through a snapshot from before the call:
objects known then are found as they were.  (Partial: `__old__` and the counterexample shown are not looked up
through such a snapshot, see `original_shares`.) -/
theorem old_kept_partial {u : T → T → Bool} (hu : ∀ t, u t t = true) {w w' : World T V} (hw : Reachable u w)
    (hrun : CallRun u w.checkpoint [] w') (r : Nat) (t : T) (v : V) (a : Nat)
    (h : search u r t (w.heapAt headSnapshot) = some a) :
    w'.find u r t w.currentSnapshot v = (a, w') ∧ w'.mem.get a = w.mem.get a := by
  have hi := hw.inv
  have hcopy := checkpoint_copies hw r t v a h
  obtain ⟨k, h1, h2⟩ := head_at hi.ne
  rw [h2] at h
  have hlen : 0 < w.heaps.length := List.length_pos_iff.2 hi.ne
  have hat : w.checkpoint.heaps[w.heaps.length - 1]? = some k := by
    unfold World.checkpoint
    simp only
    rw [List.getElem?_append_left (by omega), h1]
  have hlen2 : w.checkpoint.heaps.length = w.heaps.length + 1 := by
    unfold World.checkpoint; simp
  obtain ⟨g1, g2⟩ := call_keeps hu hrun hi.checkpoint (fun a ha => by cases ha)
  obtain ⟨e, he, _, hea⟩ := search_mem h
  refine ⟨?_, ?_⟩
  · obtain ⟨k', h3, h4⟩ := g1.search hat h
    refine find_some ?_ v
    have : w.currentSnapshot = ((w.heaps.length - 1 : Nat) : Int) := by
      unfold World.currentSnapshot; omega
    rw [this, heapAt_nat, h3]
    exact h4
  · rw [← hea, g2 _ k e (by omega) hat he, hea]
    exact hcopy.2.2.2.1

/-- Disagreement: the original of an argument and the copy of it that is given to the function use the same heap:
`attempt_call` (core.py:1524-1529) makes the arguments (snapshot -1), then a checkpoint, and then the copies (whose
snapshot is the number of that last heap).  So `__old__`, the counterexample shown and the test whether an argument
was changed see the objects that the function has changed. -/
theorem original_shares {u : T → T → Bool} {w : World T V} (hw : w.heaps ≠ []) (r : Nat) (t : T) (v : V) :
    w.find u r t headSnapshot v = w.find u r t (copySnapshot w) v := by
  have hlen : 0 < w.heaps.length := List.length_pos_iff.2 hw
  have : w.heapAt (copySnapshot w) = w.heapAt headSnapshot := by
    have h : copySnapshot w = ((w.heaps.length - 1 : Nat) : Int) := by
      unfold copySnapshot World.currentSnapshot; omega
    obtain ⟨k, h1, h2⟩ := head_at hw
    rw [h, heapAt_nat, h1, h2]; rfl
  unfold World.find
  rw [this]

/-- Disagreement: so the function changes an object that it got from its copy of an argument from 10 to 20, and the
original argument has 20 there. -/
theorem old_value_changed : ∃ (u : Nat → Nat → Bool) (w : World Nat Nat), Reachable u w ∧
    let call := w.checkpoint
    let (a, w1) := call.find u 7 0 (copySnapshot call) 10
    let w2 : World Nat Nat := ⟨w1.heaps, w1.mem.set a 20⟩
    let (b, w3) := w2.find u 7 0 headSnapshot 10
    w1.mem.get a = 10 ∧ b = a ∧ w3.mem.get b = 20 :=
  ⟨fun a b => decide (a = b), World.start ⟨fun _ => 0, 0⟩, .start _, by decide⟩

/-- Disagreement: an object that is first looked up through an older snapshot is the one that the newest heap gets, not
the copy kept for that snapshot (find_key_in_heap returns `ret`, which `add_value_to_heaps` puts in the last heap only):
looked up again, it is another one. -/
theorem first_old_lookup_live : ∃ (u : Nat → Nat → Bool) (w : World Nat Nat), Reachable u w ∧
    let (a, w1) := w.find u 7 0 0 10
    (w1.find u 7 0 0 10).1 ≠ a ∧ (w1.find u 7 0 headSnapshot 10).1 = a :=
  ⟨fun a b => decide (a = b), (World.start ⟨fun _ => 0, 0⟩).checkpoint, .checkpoint _ (.start _), by decide⟩

/-! ### Examples -/

/-- Three lookups, of which two are of the same reference. -/
example : let u : Nat → Nat → Bool := fun a b => decide (a = b)
    let w : World Nat Nat := World.start ⟨fun _ => 0, 0⟩
    let (a, w) := w.find u 7 0 headSnapshot 10
    let (b, w) := w.find u 8 0 headSnapshot 11
    let (c, _) := w.find u 7 0 headSnapshot 12
    a = c ∧ a ≠ b := by decide

/-- Reachable worlds with objects. -/
example : Reachable (fun a b : Nat => decide (a = b))
    ((World.start (⟨fun _ => 0, 0⟩ : Mem Nat)).find (fun a b => decide (a = b)) 7 0 headSnapshot 10).2 :=
  .op _ (.find 7 0 headSnapshot 10) (.start _)

/-- A call that changes an object: the older heap keeps 10. -/
example : let u : Nat → Nat → Bool := fun a b => decide (a = b)
    let w : World Nat Nat := ((World.start ⟨fun _ => 0, 0⟩).find u 7 0 headSnapshot 10).2
    let c := w.checkpoint
    let (a, w1) := c.find u 7 0 headSnapshot 0
    let w' : World Nat Nat := ⟨w1.heaps, w1.mem.set a 20⟩
    CallRun u c [] w' ∧ search u 7 0 (w.heapAt headSnapshot) = some 0 ∧ a = 1 ∧
      w'.mem.get (w'.find u 7 0 0 0).1 = 10 ∧ w'.mem.get (w'.find u 7 0 headSnapshot 0).1 = 20 := by
  intro u w c
  refine ⟨?_, by decide⟩
  exact .find _ _ 7 0 0 _ (.set _ _ _ 20 _ (List.mem_cons_self ..) (.nil _ _))

end Verif.Heap
