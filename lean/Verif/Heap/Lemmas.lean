import Verif.Heap.Spec
/-
Lemmas about the heaps.
-/
namespace Verif.Heap

variable {T V : Type}

/-! ### Lists of heaps -/

theorem split_last (l : List (List (Entry T))) (h : l ≠ []) : l = l.dropLast ++ [l.getLast?.getD []] := by
  obtain ⟨x, hx⟩ : ∃ x, l.getLast? = some x := by
    cases e : l.getLast? with
    | none => exact absurd (List.getLast?_eq_none_iff.1 e) h
    | some x => exact ⟨x, rfl⟩
  rw [hx]
  simp only [Option.getD_some]
  obtain ⟨init, rfl⟩ := List.getLast?_eq_some_iff.1 hx
  simp

theorem heapAt_head (init : List (List (Entry T))) (last : List (Entry T)) (m : Mem V) :
    World.heapAt ⟨init ++ [last], m⟩ headSnapshot = last := by
  unfold World.heapAt headSnapshot
  simp only [List.length_append, List.length_singleton]
  rw [if_pos (show (-1 : Int) < 0 by decide)]
  rw [if_pos (by omega)]
  have : (-1 + ((init.length + 1 : Nat) : Int)).toNat = init.length := by omega
  rw [this]
  simp

theorem heapAt_nat (w : World T V) (i : Nat) : w.heapAt (i : Int) = w.heaps[i]?.getD [] := by
  unfold World.heapAt
  simp only
  rw [if_neg (show ¬ (i : Int) < 0 by omega), if_pos (by omega)]
  simp

theorem search_append (u : T → T → Bool) (r : Nat) (t : T) (h k : List (Entry T)) :
    search u r t (h ++ k) = (search u r t h).or (search u r t k) := by
  induction h with
  | nil => rfl
  | cons e es ih =>
    simp only [List.cons_append, search]
    split
    · split
      · rfl
      · exact ih
    · exact ih

theorem search_mem {u : T → T → Bool} {r : Nat} {t : T} {h : List (Entry T)} {a : Nat}
    (hs : search u r t h = some a) : ∃ e ∈ h, e.ref = r ∧ e.addr = a := by
  induction h with
  | nil => cases hs
  | cons e es ih =>
    simp only [search] at hs
    split at hs
    · split at hs
      · rename_i h1 h2
        exact ⟨e, List.mem_cons_self .., h2, by cases hs; rfl⟩
      · obtain ⟨f, hf, h1⟩ := ih hs
        exact ⟨f, List.mem_cons_of_mem _ hf, h1⟩
    · obtain ⟨f, hf, h1⟩ := ih hs
      exact ⟨f, List.mem_cons_of_mem _ hf, h1⟩

/-! ### Copies -/

theorem copyHeap_next (m : Mem V) (h : List (Entry T)) : (copyHeap m h).2.next = m.next + h.length := by
  induction h generalizing m with
  | nil => rfl
  | cons e es ih =>
    simp only [copyHeap, List.length_cons]
    rw [ih]
    simp only [Mem.copy, Mem.alloc]
    omega

theorem copyHeap_get (m : Mem V) (h : List (Entry T)) (a : Nat) (ha : a < m.next) :
    (copyHeap m h).2.get a = m.get a := by
  induction h generalizing m with
  | nil => rfl
  | cons e es ih =>
    simp only [copyHeap]
    rw [ih _ (by simp only [Mem.copy, Mem.alloc]; omega)]
    simp only [Mem.copy, Mem.alloc]
    rw [if_neg (by omega)]

theorem copyHeap_addr (m : Mem V) (h : List (Entry T)) :
    (copyHeap m h).1.map (·.addr) = List.range' m.next h.length := by
  induction h generalizing m with
  | nil => rfl
  | cons e es ih =>
    simp only [copyHeap, List.map_cons, List.length_cons, List.range'_succ]
    rw [ih]
    rfl

theorem copyHeap_search (u : T → T → Bool) (r : Nat) (t : T) (m : Mem V) (h : List (Entry T))
    (hb : ∀ e ∈ h, e.addr < m.next) (a : Nat) (hs : search u r t h = some a) :
    ∃ b, search u r t (copyHeap m h).1 = some b ∧ (copyHeap m h).2.get b = m.get a ∧ m.next ≤ b := by
  induction h generalizing m with
  | nil => cases hs
  | cons e es ih =>
    have hlt : ∀ x ∈ es, x.addr < (m.copy e.addr).2.next := fun x hx => by
      have := hb x (List.mem_cons_of_mem _ hx)
      simp only [Mem.copy, Mem.alloc]; omega
    simp only [search] at hs
    simp only [copyHeap, search]
    have again (hs' : search u r t es = some a) :
        ∃ b, search u r t (copyHeap (m.copy e.addr).2 es).1 = some b ∧
          (copyHeap (m.copy e.addr).2 es).2.get b = m.get a ∧ m.next ≤ b := by
      obtain ⟨b, h1, h2, h3⟩ := ih _ hlt hs'
      refine ⟨b, h1, ?_, by simp only [Mem.copy, Mem.alloc] at h3; omega⟩
      rw [h2]
      obtain ⟨f, hf, _, hfa⟩ := search_mem hs'
      have := hb f (List.mem_cons_of_mem _ hf)
      simp only [Mem.copy, Mem.alloc]
      rw [if_neg (by omega)]
    split at hs
    · rename_i h1
      rw [if_pos h1]
      split at hs
      · rename_i h2
        rw [if_pos h2]
        cases hs
        refine ⟨m.next, rfl, ?_, Nat.le_refl _⟩
        rw [copyHeap_get _ _ _ (by simp only [Mem.copy, Mem.alloc]; omega)]
        simp only [Mem.copy, Mem.alloc, if_true]
      · rename_i h2
        rw [if_neg h2]
        exact again hs
    · rename_i h1
      rw [if_neg h1]
      exact again hs

theorem addCopies_next (m : Mem V) (r : Nat) (t : T) (a : Nat) (hs : List (List (Entry T))) :
    (addCopies m r t a hs).2.next = m.next + hs.length := by
  induction hs generalizing m with
  | nil => rfl
  | cons e es ih =>
    simp only [addCopies, List.length_cons]
    rw [ih]
    simp only [Mem.copy, Mem.alloc]
    omega

theorem addCopies_get (m : Mem V) (r : Nat) (t : T) (a : Nat) (hs : List (List (Entry T))) (b : Nat)
    (hb : b < m.next) : (addCopies m r t a hs).2.get b = m.get b := by
  induction hs generalizing m with
  | nil => rfl
  | cons e es ih =>
    simp only [addCopies]
    rw [ih _ (by simp only [Mem.copy, Mem.alloc]; omega)]
    simp only [Mem.copy, Mem.alloc]
    rw [if_neg (by omega)]

theorem addCopies_at (m : Mem V) (r : Nat) (t : T) (a : Nat) (hs : List (List (Entry T))) (i : Nat) :
    (addCopies m r t a hs).1[i]? = hs[i]?.map (· ++ [⟨r, t, m.next + i⟩]) := by
  induction hs generalizing m i with
  | nil => simp [addCopies]
  | cons e es ih =>
    simp only [addCopies]
    cases i with
    | zero => simp [Mem.copy, Mem.alloc]
    | succ i =>
      simp only [List.getElem?_cons_succ]
      rw [ih]
      have : (m.copy a).2.next + i = m.next + (i + 1) := by
        simp only [Mem.copy, Mem.alloc]; omega
      rw [this]

theorem addCopies_length (m : Mem V) (r : Nat) (t : T) (a : Nat) (hs : List (List (Entry T))) :
    (addCopies m r t a hs).1.length = hs.length := by
  induction hs generalizing m with
  | nil => rfl
  | cons e es ih => simp only [addCopies, List.length_cons]; rw [ih]

theorem addCopies_content (m : Mem V) (r : Nat) (t : T) (a : Nat) (ha : a < m.next)
    (hs : List (List (Entry T))) (i : Nat) (hi : i < hs.length) :
    (addCopies m r t a hs).2.get (m.next + i) = m.get a := by
  induction hs generalizing m i with
  | nil => exact absurd hi (Nat.not_lt_zero _)
  | cons e es ih =>
    simp only [addCopies]
    cases i with
    | zero =>
      rw [addCopies_get _ _ _ _ _ _ (by simp only [Mem.copy, Mem.alloc]; omega)]
      simp only [Mem.copy, Mem.alloc, Nat.add_zero, if_true]
    | succ i =>
      have h1 : m.next + (i + 1) = (m.copy a).2.next + i := by simp only [Mem.copy, Mem.alloc]; omega
      rw [h1, ih _ (by simp only [Mem.copy, Mem.alloc]; omega) i (by simpa using hi)]
      simp only [Mem.copy, Mem.alloc]
      rw [if_neg (by omega)]

/-! ### No object is in two places -/

/-- Addresses are in use, and no address is in two places. -/
structure Inv (w : World T V) : Prop where
  ne : w.heaps ≠ []
  bound : ∀ (i p : Nat) (h : List (Entry T)) (e : Entry T), w.heaps[i]? = some h → h[p]? = some e →
    e.addr < w.mem.next
  inj : ∀ (i p j q : Nat) (h k : List (Entry T)) (e f : Entry T), w.heaps[i]? = some h → h[p]? = some e →
    w.heaps[j]? = some k → k[q]? = some f → e.addr = f.addr → i = j ∧ p = q

/-- The heap at an index after `find_key_in_heap` has made an object. -/
theorem addValue_at (w : World T V) (hne : w.heaps ≠ []) (r : Nat) (t : T) (v : V) (i : Nat) :
    (World.addValue ⟨w.heaps, (w.mem.alloc v).2⟩ r t w.mem.next).heaps[i]? =
      w.heaps[i]?.map (· ++ [⟨r, t, if i + 1 = w.heaps.length then w.mem.next else w.mem.next + 1 + i⟩]) := by
  have hsp := split_last w.heaps hne
  generalize w.heaps.dropLast = init at hsp
  generalize w.heaps.getLast?.getD [] = last at hsp
  unfold World.addValue
  simp only [hsp, List.dropLast_concat, List.getLast?_concat, Option.getD_some, List.length_append,
    List.length_singleton]
  by_cases hi : i < init.length
  · rw [List.getElem?_append_left (by rw [addCopies_length]; exact hi), addCopies_at,
      List.getElem?_append_left hi]
    rw [if_neg (by omega)]
    rfl
  · rw [List.getElem?_append_right (by rw [addCopies_length]; omega), addCopies_length,
      List.getElem?_append_right (by omega)]
    by_cases hi2 : i = init.length
    · subst hi2
      simp
    · obtain ⟨d, hd⟩ : ∃ d, i - init.length = d + 1 := ⟨i - init.length - 1, by omega⟩
      rw [hd]; simp

theorem addValue_next (w : World T V) (hne : w.heaps ≠ []) (r : Nat) (t : T) (v : V) :
    (World.addValue ⟨w.heaps, (w.mem.alloc v).2⟩ r t w.mem.next).mem.next = w.mem.next + w.heaps.length := by
  have : 0 < w.heaps.length := List.length_pos_iff.2 hne
  unfold World.addValue
  simp only [addCopies_next, List.length_dropLast, Mem.alloc]
  omega

theorem addValue_get (w : World T V) (r : Nat) (t : T) (v : V) (b : Nat) (hb : b < w.mem.next) :
    (World.addValue ⟨w.heaps, (w.mem.alloc v).2⟩ r t w.mem.next).mem.get b = w.mem.get b := by
  unfold World.addValue
  simp only
  rw [addCopies_get _ _ _ _ _ _ (by simp only [Mem.alloc]; omega)]
  simp only [Mem.alloc]
  rw [if_neg (by omega)]

theorem addValue_get_new (w : World T V) (r : Nat) (t : T) (v : V) :
    (World.addValue ⟨w.heaps, (w.mem.alloc v).2⟩ r t w.mem.next).mem.get w.mem.next = v := by
  unfold World.addValue
  simp only
  rw [addCopies_get _ _ _ _ _ _ (by simp only [Mem.alloc]; omega)]
  simp only [Mem.alloc, if_true]

theorem find_some {u : T → T → Bool} {w : World T V} {r : Nat} {t : T} {s : Int} {a : Nat}
    (h : search u r t (w.heapAt s) = some a) (v : V) : w.find u r t s v = (a, w) := by
  unfold World.find; rw [h]

theorem find_none {u : T → T → Bool} {w : World T V} {r : Nat} {t : T} {s : Int}
    (h : search u r t (w.heapAt s) = none) (v : V) :
    w.find u r t s v = (w.mem.next, World.addValue ⟨w.heaps, (w.mem.alloc v).2⟩ r t w.mem.next) := by
  unfold World.find; rw [h]; rfl

theorem getElem?_concat {α} (l : List α) (x : α) (p : Nat) (e : α) (h : (l ++ [x])[p]? = some e) :
    l[p]? = some e ∨ (p = l.length ∧ e = x) := by
  by_cases hp : p < l.length
  · rw [List.getElem?_append_left hp] at h; exact Or.inl h
  · rw [List.getElem?_append_right (by omega)] at h
    by_cases hp2 : p = l.length
    · subst hp2
      simp at h
      exact Or.inr ⟨rfl, h.symm⟩
    · obtain ⟨d, hd⟩ : ∃ d, p - l.length = d + 1 := ⟨p - l.length - 1, by omega⟩
      rw [hd] at h; simp at h

theorem Inv.addValue {w : World T V} (hw : Inv w) (r : Nat) (t : T) (v : V) :
    Inv (World.addValue ⟨w.heaps, (w.mem.alloc v).2⟩ r t w.mem.next) := by
  have hat := addValue_at w hw.ne r t v
  have hnx := addValue_next w hw.ne r t v
  have hlen : 0 < w.heaps.length := List.length_pos_iff.2 hw.ne
  generalize World.addValue ⟨w.heaps, (w.mem.alloc v).2⟩ r t w.mem.next = w' at hat hnx
  have key : ∀ (i p : Nat) (h : List (Entry T)) (e : Entry T), w'.heaps[i]? = some h → h[p]? = some e →
      ∃ h0, w.heaps[i]? = some h0 ∧ i < w.heaps.length ∧ ((h0[p]? = some e ∧ e.addr < w.mem.next) ∨
        (p = h0.length ∧ e.addr = if i + 1 = w.heaps.length then w.mem.next else w.mem.next + 1 + i)) := by
    intro i p h e h1 h2
    rw [hat] at h1
    cases e0 : w.heaps[i]? with
    | none => rw [e0] at h1; cases h1
    | some h0 =>
      rw [e0] at h1
      simp only [Option.map_some, Option.some.injEq] at h1
      subst h1
      refine ⟨h0, rfl, (List.getElem?_eq_some_iff.1 e0).1, ?_⟩
      rcases getElem?_concat _ _ _ _ h2 with h3 | ⟨h3, h4⟩
      · exact Or.inl ⟨h3, hw.bound i p h0 e e0 h3⟩
      · exact Or.inr ⟨h3, by rw [h4]⟩
  refine ⟨?_, ?_, ?_⟩
  · intro h
    have := hat 0
    rw [h] at this
    cases e0 : w.heaps with
    | nil => exact hw.ne e0
    | cons x y => rw [e0] at this; simp at this
  · intro i p h e h1 h2
    obtain ⟨h0, _, hi, h3 | h3⟩ := key i p h e h1 h2
    · omega
    · have := h3.2
      split at this <;> omega
  · intro i p j q h k e f h1 h2 h3 h4 h5
    obtain ⟨h0, g1, hi, g2⟩ := key i p h e h1 h2
    obtain ⟨k0, g3, hj, g4⟩ := key j q k f h3 h4
    rcases g2 with ⟨g2, g5⟩ | ⟨g2, g5⟩ <;> rcases g4 with ⟨g4, g6⟩ | ⟨g4, g6⟩
    · exact hw.inj i p j q h0 k0 e f g1 g2 g3 g4 h5
    · exfalso; split at g6 <;> omega
    · exfalso; split at g5 <;> omega
    · have hij : i = j := by
        split at g5 <;> split at g6 <;> omega
      subst hij
      rw [g1] at g3
      cases g3
      exact ⟨rfl, by omega⟩

theorem Inv.find {w : World T V} (hw : Inv w) (u : T → T → Bool) (r : Nat) (t : T) (s : Int) (v : V) :
    Inv (w.find u r t s v).2 := by
  cases h : search u r t (w.heapAt s) with
  | some a => rw [find_some h]; exact hw
  | none => rw [find_none h]; exact hw.addValue r t v

theorem Inv.set {w : World T V} (hw : Inv w) (a : Nat) (v : V) : Inv (⟨w.heaps, w.mem.set a v⟩ : World T V) :=
  ⟨hw.ne, hw.bound, hw.inj⟩

theorem Inv.checkpoint {w : World T V} (hw : Inv w) : Inv w.checkpoint := by
  unfold World.checkpoint
  simp only
  generalize w.heaps.getLast?.getD [] = last
  have hn := copyHeap_next w.mem last
  have ha := copyHeap_addr w.mem last
  generalize copyHeap w.mem last = c at hn ha
  have key : ∀ (i p : Nat) (h : List (Entry T)) (e : Entry T), (w.heaps ++ [c.1])[i]? = some h →
      h[p]? = some e → (w.heaps[i]? = some h ∧ e.addr < w.mem.next) ∨
        (i = w.heaps.length ∧ e.addr = w.mem.next + p ∧ p < last.length) := by
    intro i p h e h1 h2
    rcases getElem?_concat _ _ _ _ h1 with h3 | ⟨h3, h4⟩
    · exact Or.inl ⟨h3, hw.bound i p h e h3 h2⟩
    · refine Or.inr ⟨h3, ?_⟩
      subst h4
      have h5 : (c.1.map (·.addr))[p]? = some e.addr := by rw [List.getElem?_map, h2]; rfl
      have hp : p < last.length := by
        have := (List.getElem?_eq_some_iff.1 h5).1
        rw [ha, List.length_range'] at this
        exact this
      rw [ha, List.getElem?_range' hp] at h5
      simp only [Option.some.injEq] at h5
      exact ⟨by omega, hp⟩
  refine ⟨by simp, ?_, ?_⟩
  · intro i p h e h1 h2
    rcases key i p h e h1 h2 with ⟨_, h3⟩ | ⟨_, h3, h4⟩
    · show e.addr < c.2.next
      omega
    · show e.addr < c.2.next
      omega
  · intro i p j q h k e f h1 h2 h3 h4 h5
    rcases key i p h e h1 h2 with ⟨g1, g2⟩ | ⟨g1, g2, _⟩ <;> rcases key j q k f h3 h4 with ⟨g3, g4⟩ | ⟨g3, g4, _⟩
    · exact hw.inj i p j q h k e f g1 h2 g3 h4 h5
    · omega
    · omega
    · omega

theorem Inv.start (m : Mem V) : Inv (World.start m : World T V) := by
  have key : ∀ (i p : Nat) (h : List (Entry T)) (e : Entry T), ([[]] : List (List (Entry T)))[i]? = some h →
      h[p]? = some e → False := by
    intro i p h e h1 h2
    cases i with
    | zero => simp at h1; subst h1; simp at h2
    | succ i => simp at h1
  refine ⟨by simp [World.start], ?_, ?_⟩
  · intro i p h e h1 h2; exact (key i p h e h1 h2).elim
  · intro i p j q h k e f h1 h2; exact (key i p h e h1 h2).elim

theorem Inv.op {w : World T V} (hw : Inv w) (u : T → T → Bool) (o : Op T V) : Inv (Op.run u w o) := by
  cases o with
  | find r t s v => exact hw.find u r t s v
  | set a v => exact hw.set a v

theorem Reachable.inv {u : T → T → Bool} {w : World T V} (h : Reachable u w) : Inv w := by
  induction h with
  | start m => exact Inv.start m
  | op w o _ ih => exact ih.op u o
  | checkpoint w _ ih => exact ih.checkpoint

theorem Inv.runAll {w : World T V} (hw : Inv w) (u : T → T → Bool) (ops : List (Op T V)) :
    Inv (runAll u w ops) := by
  induction ops generalizing w with
  | nil => exact hw
  | cons o os ih => exact ih (hw.op u o)

/-! ### Heaps only grow -/

/-- Every heap is a prefix of what it becomes. -/
def Grows (w w' : World T V) : Prop :=
  w'.heaps.length = w.heaps.length ∧
    ∀ (i : Nat) (h : List (Entry T)), w.heaps[i]? = some h → ∃ x, w'.heaps[i]? = some (h ++ x)

theorem Grows.refl (w : World T V) : Grows w w := ⟨rfl, fun _ _ h => ⟨[], by simpa using h⟩⟩

theorem Grows.trans {a b c : World T V} (h1 : Grows a b) (h2 : Grows b c) : Grows a c := by
  refine ⟨h2.1.trans h1.1, fun i h hi => ?_⟩
  obtain ⟨x, hx⟩ := h1.2 i h hi
  obtain ⟨y, hy⟩ := h2.2 i _ hx
  exact ⟨x ++ y, by rw [hy, List.append_assoc]⟩

theorem Grows.find {w : World T V} (hw : w.heaps ≠ []) (u : T → T → Bool) (r : Nat) (t : T) (s : Int) (v : V) :
    Grows w (w.find u r t s v).2 := by
  cases h : search u r t (w.heapAt s) with
  | some a => rw [find_some h]; exact Grows.refl w
  | none =>
    rw [find_none h]
    refine ⟨?_, fun i h hi => ?_⟩
    · show (World.addValue ⟨w.heaps, (w.mem.alloc v).2⟩ r t w.mem.next).heaps.length = _
      have : 0 < w.heaps.length := List.length_pos_iff.2 hw
      unfold World.addValue
      simp only [List.length_append, addCopies_length, List.length_dropLast, List.length_singleton]
      omega
    · exact ⟨_, by
        show (World.addValue ⟨w.heaps, (w.mem.alloc v).2⟩ r t w.mem.next).heaps[i]? = _
        rw [addValue_at w hw, hi]; rfl⟩

theorem Grows.runAll {w : World T V} (hw : Inv w) (u : T → T → Bool) (ops : List (Op T V)) :
    Grows w (runAll u w ops) := by
  induction ops generalizing w with
  | nil => exact Grows.refl w
  | cons o os ih =>
    refine Grows.trans ?_ (ih (hw.op u o))
    cases o with
    | find r t s v => exact Grows.find hw.ne u r t s v
    | set a v => exact Grows.refl w

/-- The heap at the head, and the index it has. -/
theorem head_at {w : World T V} (hw : w.heaps ≠ []) :
    ∃ h, w.heaps[w.heaps.length - 1]? = some h ∧ w.heapAt headSnapshot = h := by
  obtain ⟨hs, m⟩ := w
  have hsp := split_last hs hw
  simp only at hsp hw ⊢
  generalize hs.dropLast = init at hsp
  generalize hs.getLast?.getD [] = last at hsp
  subst hsp
  exact ⟨last, by simp, heapAt_head init last m⟩

theorem Grows.search {w w' : World T V} (hg : Grows w w') {u : T → T → Bool} {r : Nat} {t : T} {i : Nat}
    {h : List (Entry T)} {a : Nat} (hi : w.heaps[i]? = some h) (hs : search u r t h = some a) :
    ∃ h', w'.heaps[i]? = some h' ∧ Heap.search u r t h' = some a := by
  obtain ⟨x, hx⟩ := hg.2 i h hi
  exact ⟨_, hx, by rw [search_append, hs]; rfl⟩

/-- Objects that are found at the head stay there. -/
theorem head_stays {w w' : World T V} (hw : w.heaps ≠ []) (hw' : w'.heaps ≠ []) (hg : Grows w w')
    {u : T → T → Bool} {r : Nat} {t : T} {a : Nat} (hs : search u r t (w.heapAt headSnapshot) = some a) :
    search u r t (w'.heapAt headSnapshot) = some a := by
  obtain ⟨h, h1, h2⟩ := head_at hw
  obtain ⟨h', h3, h4⟩ := head_at hw'
  rw [h2] at hs
  obtain ⟨k, h5, h6⟩ := hg.search h1 hs
  rw [hg.1] at h3
  rw [h3] at h5
  cases h5
  rw [h4]; exact h6

/-- What was looked up is found from then on. -/
theorem found_after {w : World T V} (hw : Inv w) {u : T → T → Bool} (hu : ∀ t, u t t = true) (r : Nat) (t : T)
    (v : V) : search u r t ((w.find u r t headSnapshot v).2.heapAt headSnapshot) =
      some (w.find u r t headSnapshot v).1 := by
  cases h : search u r t (w.heapAt headSnapshot) with
  | some a => rw [find_some h]; exact h
  | none =>
    have hg := Grows.find hw.ne u r t headSnapshot v
    have hi := hw.find u r t headSnapshot v
    obtain ⟨k, h1, h2⟩ := head_at hw.ne
    obtain ⟨k', h3, h4⟩ := head_at hi.ne
    rw [h4]
    rw [hg.1] at h3
    rw [find_none h] at h3 ⊢
    simp only at h3
    rw [addValue_at w hw.ne, h1] at h3
    simp only [Option.map_some, Option.some.injEq] at h3
    have : w.heaps.length - 1 + 1 = w.heaps.length := by
      have := List.length_pos_iff.2 hw.ne; omega
    rw [if_pos this] at h3
    rw [← h3, search_append]
    rw [h2] at h
    rw [h]
    simp [Heap.search, hu]

/-- Objects of different references are different. -/
theorem search_inj {w : World T V} (hw : Inv w) {u : T → T → Bool} {r r' : Nat} {t t' : T} {a : Nat}
    (h1 : search u r t (w.heapAt headSnapshot) = some a)
    (h2 : search u r' t' (w.heapAt headSnapshot) = some a) : r = r' := by
  obtain ⟨h, h3, h4⟩ := head_at hw.ne
  rw [h4] at h1 h2
  obtain ⟨e, he, her, hea⟩ := search_mem h1
  obtain ⟨f, hf, hfr, hfa⟩ := search_mem h2
  obtain ⟨p, hp⟩ := List.getElem?_of_mem he
  obtain ⟨q, hq⟩ := List.getElem?_of_mem hf
  obtain ⟨_, rfl⟩ := hw.inj _ p _ q h h e f h3 hp h3 hq (hea.trans hfa.symm)
  rw [hp] at hq
  cases hq
  exact her.symm.trans hfr

/-! ### Older heaps -/

/-- During a call the objects of older heaps do not change. -/
theorem call_keeps {u : T → T → Bool} (hu : ∀ t, u t t = true) {w w' : World T V} {known : List Nat}
    (hr : CallRun u w known w') (hw : Inv w)
    (hk : ∀ a ∈ known, ∃ e ∈ w.heapAt headSnapshot, e.addr = a) :
    Grows w w' ∧ ∀ (i : Nat) (h : List (Entry T)) (e : Entry T), i + 1 < w.heaps.length →
      w.heaps[i]? = some h → e ∈ h → w'.mem.get e.addr = w.mem.get e.addr := by
  induction hr with
  | nil w known => exact ⟨Grows.refl w, fun _ _ _ _ _ _ => rfl⟩
  | find w known r t v w' _ ih =>
    have hi := hw.find u r t headSnapshot v
    have hg := Grows.find hw.ne u r t headSnapshot v
    have hfa := found_after hw hu r t v
    have hk' : ∀ a ∈ (w.find u r t headSnapshot v).1 :: known,
        ∃ e ∈ (w.find u r t headSnapshot v).2.heapAt headSnapshot, e.addr = a := by
      intro a ha
      rcases List.mem_cons.1 ha with rfl | ha
      · obtain ⟨e, he, _, h⟩ := search_mem hfa
        exact ⟨e, he, h⟩
      · obtain ⟨e, he, hea⟩ := hk a ha
        obtain ⟨h, h1, h2⟩ := head_at hw.ne
        obtain ⟨k, h3, h4⟩ := head_at hi.ne
        obtain ⟨x, hx⟩ := hg.2 _ h h1
        rw [hg.1] at h3
        rw [h3] at hx
        cases hx
        exact ⟨e, by rw [h4]; exact List.mem_append_left _ (h2 ▸ he), hea⟩
    obtain ⟨g1, g2⟩ := ih hi hk'
    refine ⟨hg.trans g1, fun i h e hlt hh he => ?_⟩
    obtain ⟨x, hx⟩ := hg.2 i h hh
    rw [g2 i _ e (by rw [hg.1]; exact hlt) hx (List.mem_append_left _ he)]
    obtain ⟨p, hp⟩ := List.getElem?_of_mem he
    have hb := hw.bound i p h e hh hp
    cases hs : search u r t (w.heapAt headSnapshot) with
    | some a => rw [find_some hs]
    | none => rw [find_none hs]; exact addValue_get w r t v _ hb
  | set w known a v w' ha _ ih =>
    obtain ⟨g1, g2⟩ := ih (hw.set a v) hk
    refine ⟨g1, fun i h e hlt hh he => ?_⟩
    rw [g2 i h e hlt hh he]
    show (if e.addr = a then v else w.mem.get e.addr) = _
    rw [if_neg]
    intro hea
    obtain ⟨f, hf, hfa⟩ := hk a ha
    obtain ⟨k, h1, h2⟩ := head_at hw.ne
    rw [h2] at hf
    obtain ⟨p, hp⟩ := List.getElem?_of_mem he
    obtain ⟨q, hq⟩ := List.getElem?_of_mem hf
    have := (hw.inj i p _ q h k e f hh hp h1 hq (hea.trans hfa.symm)).1
    omega

end Verif.Heap
