import Verif.Arrays.Model
import Mathlib.Data.List.Perm.Subperm
import Mathlib.Data.List.Nodup
/-
Facts about arrays from which keys were taken one after the other, and about dictionaries with a known
order.
-/
set_option linter.unusedSectionVars false

namespace Verif.Arrays

variable {K V : Type} [DecidableEq K] [DecidableEq V]

/-- The array without the keys of a list. -/
def left (arr : K → Option V) (l : List K) : K → Option V := fun k => if k ∈ l then none else arr k

theorem left_nil (arr : K → Option V) : left arr [] = arr := by funext k; simp [left]

theorem left_store {arr rem : K → Option V} {l : List K} {k : K} {v : V} (h : left arr l = store rem k (some v))
    (hr : rem k = none) : k ∉ l ∧ arr k = some v ∧ rem = left arr (l ++ [k]) := by
  have hk := congrFun h k
  simp only [left, store, if_true] at hk
  have hkl : k ∉ l := by
    intro hl
    rw [if_pos hl] at hk
    cases hk
  rw [if_neg hkl] at hk
  refine ⟨hkl, hk, ?_⟩
  funext j
  have hj := congrFun h j
  simp only [left, store] at hj
  by_cases e : j = k
  · subst e
    simp [left, hr]
  · rw [if_neg e] at hj
    rw [← hj]
    simp [left, e]

theorem store_left {arr : K → Option V} {l : List K} {k : K} {v : V} (hk : k ∉ l) (h : arr k = some v) :
    left arr l = store (left arr (l ++ [k])) k (some v) ∧ left arr (l ++ [k]) k = none := by
  refine ⟨?_, by simp [left]⟩
  funext j
  by_cases e : j = k
  · subst e
    simp [left, store, hk, h]
  · simp [left, store, e]

/-- The keys, in some order, and their number. -/
def Order (d : Dict K V) (o : List K) : Prop :=
  o.Nodup ∧ (∀ k, (d.arr k).isSome = true ↔ k ∈ o) ∧ (o.length : Int) = d.len

/-- What holds of the cache. -/
def CacheInv (d : Dict K V) (c : List K) : Prop :=
  c.Nodup ∧ (∀ k ∈ c, (d.arr k).isSome = true) ∧ (c.length : Int) ≤ d.len

/-- What holds of a generator. -/
def GenInv (d : Dict K V) (c : List K) (g : Gen (K → Option V)) : Prop :=
  g.idx ≤ c.length ∧ g.arr = left d.arr (c.take g.idx)

theorem GenInv.mono {d : Dict K V} {c c' : List K} {g : Gen (K → Option V)} (h : GenInv d c g) (hp : c <+: c') :
    GenInv d c' g := by
  obtain ⟨t, rfl⟩ := hp
  refine ⟨by have := h.1; simp; omega, ?_⟩
  rw [List.take_append_of_le_length h.1]
  exact h.2

theorem take_succ_of {c : List K} {i : Nat} {k : K} (h : c[i]? = some k) : c.take (i + 1) = c.take i ++ [k] := by
  rw [List.take_add_one, h]
  rfl

theorem next_inv {d : Dict K V} {c c' : List K} {g g' : Gen (K → Option V)} {o : Obs K V} (hc : CacheInv d c)
    (hg : GenInv d c g) (h : DictNext d c g o c' g') :
    CacheInv d c' ∧ c <+: c' ∧ GenInv d c' g' ∧
      ((o = .ignored ∧ g' = g ∧ c' = c) ∨ (o = .stop ∧ g' = g ∧ g.idx = c.length ∧ Order d c ∧ c' = c) ∨
        ∃ k, o = .yield k ∧ c'[g.idx]? = some k ∧ g'.idx = g.idx + 1) := by
  cases h with
  | empty => exact ⟨hc, List.prefix_refl _, hg, Or.inl ⟨rfl, rfl, rfl⟩⟩
  | leftover => exact ⟨hc, List.prefix_refl _, hg, Or.inl ⟨rfl, rfl, rfl⟩⟩
  | internal h1 h2 h3 => exact absurd hg.1 (by omega)
  | stop h1 h2 =>
    have h3 : g.idx = c.length := by have := hg.1; have := hc.2.2; omega
    refine ⟨hc, List.prefix_refl _, hg, Or.inr (Or.inl ⟨rfl, rfl, h3, ⟨hc.1, ?_, ?_⟩, rfl⟩)⟩
    · intro k
      refine ⟨?_, hc.2.1 k⟩
      intro hs
      have := congrFun (hg.2.symm.trans h2) k
      rw [h3, List.take_length] at this
      by_cases hk : k ∈ c
      · exact hk
      · rw [left, if_neg hk] at this
        rw [this] at hs
        cases hs
    · have := hc.2.2; omega
  | fresh k v rem h1 h2 h3 h4 h5 =>
    have ht : c.take g.idx = c := by rw [h5, List.take_length]
    rw [hg.2, ht] at h3
    obtain ⟨hk, hv, hr⟩ := left_store h3 h4
    refine ⟨⟨?_, ?_, ?_⟩, List.prefix_append _ _, ⟨?_, ?_⟩, Or.inr (Or.inr ⟨k, rfl, ?_, rfl⟩)⟩
    · exact List.nodup_append.2 ⟨hc.1, by simp, by
        intro a ha b hb
        simp only [List.mem_singleton] at hb
        rintro rfl
        exact hk (hb ▸ ha)⟩
    · intro j hj
      rcases List.mem_append.1 hj with h | h
      · exact hc.2.1 j h
      · simp only [List.mem_singleton] at h
        rw [h, hv]
        rfl
    · simp; omega
    · simp; omega
    · show rem = left d.arr ((c ++ [k]).take (g.idx + 1))
      rw [hr, h5, List.take_of_length_le (by simp)]
    · rw [h5]; simp
  | cached k v rem h1 h2 h3 h4 h5 h6 =>
    rw [hg.2] at h3
    obtain ⟨hk, hv, hr⟩ := left_store h3 h4
    refine ⟨hc, List.prefix_refl _, ⟨?_, ?_⟩, Or.inr (Or.inr ⟨k, rfl, h6, rfl⟩)⟩
    · show g.idx + 1 ≤ c.length
      omega
    · show rem = left d.arr (c.take (g.idx + 1))
      rw [hr, take_succ_of h6]

/-- The generator ends: all keys have been seen. -/
theorem drain_order {d : Dict K V} {c c' : List K} {g : Gen (K → Option V)} (h : DictDrain d c g c')
    (hc : CacheInv d c) (hg : GenInv d c g) : c <+: c' ∧ Order d c' := by
  induction h with
  | done c g c' g' hn =>
    obtain ⟨-, -, -, h | h | h⟩ := next_inv hc hg hn
    · cases h.1
    · rw [h.2.2.2.2]
      exact ⟨List.prefix_refl _, h.2.2.2.1⟩
    · obtain ⟨k, h, -⟩ := h
      cases h
  | more c g k c' g' c'' hn hd ih =>
    obtain ⟨h1, h2, h3, -⟩ := next_inv hc hg hn
    obtain ⟨h4, h5⟩ := ih h1 h3
    exact ⟨h2.trans h4, h5⟩

/-! ### Items in a known order -/

/-- The items, in the order of the keys. -/
def items (d : Dict K V) (o : List K) : List (K × V) := o.filterMap fun k => (d.arr k).map fun v => (k, v)

theorem keys_items {d : Dict K V} {o : List K} (h : ∀ k ∈ o, (d.arr k).isSome = true) : keys (items d o) = o := by
  induction o with
  | nil => rfl
  | cons k o ih =>
    obtain ⟨v, hv⟩ := Option.isSome_iff_exists.1 (h k List.mem_cons_self)
    have : items d (k :: o) = (k, v) :: items d o := by simp [items, hv]
    rw [this]
    show k :: keys (items d o) = _
    rw [ih (fun j hj => h j (List.mem_cons_of_mem _ hj))]

theorem mem_items {d : Dict K V} {o : List K} (h : Order d o) (e : K × V) : e ∈ items d o ↔ d.arr e.1 = some e.2 := by
  simp only [items, List.mem_filterMap]
  constructor
  · rintro ⟨k, hk, he⟩
    cases hv : d.arr k with
    | none => rw [hv] at he; cases he
    | some v =>
      rw [hv] at he
      cases he
      exact hv
  · intro he
    refine ⟨e.1, (h.2.1 e.1).1 (by rw [he]; rfl), ?_⟩
    rw [he]
    rfl

/-- With different keys, an item is found by its key. -/
theorem find_key {l : List (K × V)} (hn : (keys l).Nodup) (k : K) (v : V) :
    (l.find? fun e => e.1 = k) = some (k, v) ↔ (k, v) ∈ l := by
  induction l with
  | nil => simp
  | cons e l ih =>
    have hn' : e.1 ∉ keys l ∧ (keys l).Nodup := List.nodup_cons.1 hn
    by_cases hk : e.1 = k
    · rw [List.find?_cons_of_pos (by simpa using hk)]
      constructor
      · intro h
        cases h
        exact List.mem_cons_self
      · intro h
        rcases List.mem_cons.1 h with h | h
        · rw [h]
        · exfalso
          apply hn'.1
          rw [hk]
          exact List.mem_map.2 ⟨(k, v), h, rfl⟩
    · rw [List.find?_cons_of_neg (by simpa using hk), ih hn'.2]
      constructor
      · exact List.mem_cons_of_mem _
      · intro h
        rcases List.mem_cons.1 h with h | h
        · exact absurd (by rw [← h]) hk
        · exact h

theorem find_items {d : Dict K V} {o : List K} (h : Order d o) (k : K) :
    ((items d o).find? fun e => e.1 = k).map (·.2) = d.arr k := by
  have hk : keys (items d o) = o := keys_items fun k hk => (h.2.1 k).2 hk
  have hn : (keys (items d o)).Nodup := hk.symm ▸ h.1
  cases hv : d.arr k with
  | some v =>
    rw [(find_key hn k v).2 ((mem_items h (k, v)).2 hv)]
    rfl
  | none =>
    cases hf : (items d o).find? fun e => e.1 = k with
    | none => rfl
    | some e =>
      have h1 := List.find?_some hf
      have h2 := (mem_items h e).1 (List.mem_of_find?_eq_some hf)
      simp only [decide_eq_true_eq] at h1
      rw [h1, hv] at h2
      cases h2

theorem length_items {d : Dict K V} {o : List K} (h : Order d o) : (items d o).length = o.length := by
  have := congrArg List.length (keys_items (d := d) (o := o) fun k hk => (h.2.1 k).2 hk)
  simpa [keys] using this

/-- The items do not depend on more than the order. -/
theorem sameItems_iff (a b : List (K × V)) : sameItems a b = true ↔ ∀ e, e ∈ a ↔ e ∈ b := by
  simp only [sameItems, Bool.and_eq_true, List.all_eq_true, List.contains_eq_mem, decide_eq_true_eq]
  exact ⟨fun h e => ⟨h.1 e, h.2 e⟩, fun h => ⟨fun e => (h e).1, fun e => (h e).2⟩⟩

/-- Getting an item. -/
theorem get_eq {d : Dict K V} (hi : d.Init) (k : K) : d.get k = ((d.arr k).map Obs.value).getD .keyError := by
  rw [Dict.get]
  cases hv : d.arr k with
  | none => rfl
  | some v =>
    have : d.len ≠ 0 := by
      intro h0
      have := congrFun (hi.2.2 h0) k
      rw [hv] at this
      cases this
    simp [this]

theorem eqLoop_eq {d : Dict K V} (hi : d.Init) (other : List (K × V)) :
    d.eqLoop other = .bool (other.all fun e => decide (d.arr e.1 = some e.2)) := by
  induction other with
  | nil => rfl
  | cons e rest ih =>
    obtain ⟨k, v⟩ := e
    rw [Dict.eqLoop, get_eq hi]
    cases hv : d.arr k with
    | none => simp [hv]
    | some w =>
      by_cases hw : w = v
      · subst hw
        simp [hv, ih]
      · simp [hv, hw]

/-- Lists without repetitions, one in the other and as long. -/
theorem same_of_length {a b : List (K × V)} (ha : a.Nodup) (hb : b.Nodup) (hl : a.length = b.length)
    (h : ∀ e ∈ b, e ∈ a) : ∀ e, e ∈ a ↔ e ∈ b := by
  have hs : b.Subperm a := List.subperm_of_subset hb h
  have hp : b.Perm a := hs.perm_of_length_le (by omega)
  exact fun e => (hp.mem_iff).symm

theorem nodup_of_keys {l : List (K × V)} (h : (keys l).Nodup) : l.Nodup := List.Nodup.of_map _ h

theorem eq_eq {d : Dict K V} {o : List K} (hi : d.Init) (h : Order d o) {other : List (K × V)}
    (hn : (keys other).Nodup) : d.eq other = .bool (sameItems (items d o) other) := by
  have hk : keys (items d o) = o := keys_items fun k hk => (h.2.1 k).2 hk
  have hni : (items d o).Nodup := nodup_of_keys (hk.symm ▸ h.1)
  rw [Dict.eq, eqLoop_eq hi]
  have hlen := length_items h
  have hol := h.2.2
  by_cases hl : d.len ≠ other.length
  · rw [if_pos hl]
    congr 1
    symm
    rw [Bool.eq_false_iff]
    intro hs
    have hp : (items d o).Perm other :=
      (List.perm_ext_iff_of_nodup hni (nodup_of_keys hn)).2 ((sameItems_iff _ _).1 hs)
    have := hp.length_eq
    omega
  · rw [if_neg hl]
    congr 1
    rw [Bool.eq_iff_iff, sameItems_iff]
    simp only [List.all_eq_true, decide_eq_true_eq]
    constructor
    · intro ha
      exact same_of_length hni (nodup_of_keys hn) (by omega) fun e he => (mem_items h e).2 (ha e he)
    · intro hs e he
      exact (mem_items h e).1 ((hs e).2 he)

end Verif.Arrays
