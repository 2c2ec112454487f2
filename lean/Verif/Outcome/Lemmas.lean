import Verif.Outcome.Spec
import Mathlib.Data.List.Perm.Subperm

namespace Verif.Outcome

theorem flexZip_iff (xs : List Val) : ∀ (ys : List Val),
    (flexZip xs ys = true ↔ ∀ (i : Nat) (x y : Val), xs[i]? = some x → ys[i]? = some y → flexEq x y = true) := by
  induction xs with
  | nil => intro ys; simp [flexZip]
  | cons x xs ih =>
    intro ys
    cases ys with
    | nil => simp [flexZip]
    | cons y ys =>
      simp only [flexZip, Bool.and_eq_true, ih]
      constructor
      · rintro ⟨h1, h2⟩ i a b ha hb
        cases i with
        | zero => simp at ha hb; subst ha hb; exact h1
        | succ i => exact h2 i a b (by simpa using ha) (by simpa using hb)
      · intro h
        exact ⟨h 0 x y rfl rfl, fun i a b ha hb => h (i + 1) a b (by simpa using ha) (by simpa using hb)⟩

theorem flexItems_iff (a b : List (Key × Val)) :
    flexItems a b = true ↔ ∀ p ∈ a, flexEq p.2 (get b p.1) = true := by
  induction a with
  | nil => simp [flexItems]
  | cons p a ih => obtain ⟨k, v⟩ := p; simp [flexItems, ih]

theorem get_of_mem {b : List (Key × Val)} (hn : (b.map (·.1)).Nodup) {k : Key} {v : Val} (h : (k, v) ∈ b) :
    get b k = v := by
  induction b with
  | nil => cases h
  | cons p b ih =>
    obtain ⟨k', v'⟩ := p
    simp only [List.map_cons, List.nodup_cons] at hn
    rcases List.mem_cons.1 h with h | h
    · cases h; simp [get]
    · have : k' ≠ k := fun e => hn.1 (e ▸ List.mem_map.2 ⟨(k, v), h, rfl⟩)
      rw [get, if_neg this]
      exact ih hn.2 h

theorem get_of_not_mem {b : List (Key × Val)} {k : Key} (h : k ∉ b.map (·.1)) : get b k = missing := by
  induction b with
  | nil => rfl
  | cons p b ih =>
    obtain ⟨k', v'⟩ := p
    simp only [List.map_cons, List.mem_cons, not_or] at h
    rw [get, if_neg (fun e => h.1 e.symm)]
    exact ih h.2

theorem flexEq_missing {v : Val} (h : Plain v) : flexEq v missing = false := by
  cases v <;> simp_all [flexEq, missing, Plain]

theorem plainAll_iff (xs : List Val) : PlainAll xs ↔ ∀ x ∈ xs, Plain x := by
  induction xs with
  | nil => simp [PlainAll]
  | cons x xs ih => simp [PlainAll, ih]

theorem plainItems_iff (xs : List (Key × Val)) : PlainItems xs ↔ ∀ p ∈ xs, Plain p.2 := by
  induction xs with
  | nil => simp [PlainItems]
  | cons p xs ih => obtain ⟨k, v⟩ := p; simp [PlainItems, ih]

/-- Two lists without repetition of the same length, one contained in the other, have the same items. -/
theorem same_items {α : Type} [DecidableEq α] {a b : List α} (ha : a.Nodup) (hl : a.length = b.length)
    (h : ∀ x ∈ a, x ∈ b) (x : α) : x ∈ a ↔ x ∈ b := by
  have hp : a.Perm b := (List.subperm_of_subset ha h).perm_of_length_le (by omega)
  exact hp.mem_iff

theorem setEq_iff {a b : List Key} (ha : a.Nodup) (hb : b.Nodup) : setEq a b = true ↔ ∀ k, k ∈ a ↔ k ∈ b := by
  simp only [setEq, Bool.and_eq_true, beq_iff_eq, List.all_eq_true, List.contains_iff_mem]
  constructor
  · rintro ⟨h1, h2⟩; exact same_items ha h1 h2
  · intro h
    exact ⟨((List.perm_ext_iff_of_nodup ha hb).2 h).length_eq, fun k hk => (h k).1 hk⟩

theorem map_norm_eq {a : List Key} (h : ∀ k ∈ a, k.norm = k) : a.map Key.norm = a := by
  conv => rhs; rw [← List.map_id a]
  exact List.map_congr_left h

theorem map_norm_fst {a : List (Key × Val)} (h : ∀ p ∈ a, p.1.norm = p.1) :
    a.map (fun p => p.1.norm) = a.map (·.1) := List.map_congr_left h

theorem zip_same {n : Nat} (ih : ∀ a b : Val, sizeOf a < n → Plain a → Plain b → (flexEq a b = true ↔ Same a b))
    {xs ys : List Val} (hn : sizeOf xs < n) (hx : PlainAll xs) (hy : PlainAll ys) :
    flexZip xs ys = true ↔ ∀ (i : Nat) (x y : Val), xs[i]? = some x → ys[i]? = some y → Same x y := by
  rw [flexZip_iff]
  rw [plainAll_iff] at hx hy
  have key : ∀ (i : Nat) (x y : Val), xs[i]? = some x → ys[i]? = some y → (flexEq x y = true ↔ Same x y) := by
    intro i x y h1 h2
    have m1 := List.mem_of_getElem? h1
    have m2 := List.mem_of_getElem? h2
    have := List.sizeOf_lt_of_mem m1
    exact ih x y (by omega) (hx x m1) (hy y m2)
  exact ⟨fun h i x y h1 h2 => (key i x y h1 h2).1 (h i x y h1 h2),
    fun h i x y h1 h2 => (key i x y h1 h2).2 (h i x y h1 h2)⟩

theorem flexEq_iff_aux : ∀ (n : Nat) (a b : Val), sizeOf a < n → Plain a → Plain b → (flexEq a b = true ↔ Same a b) := by
  intro n
  induction n with
  | zero => intro a b h; omega
  | succ n ih =>
    intro a b hs ha hb
    have neq : ∀ {p : Prop}, p → (False ↔ ¬ p) := fun hp => ⟨False.elim, fun h => h hp⟩
    cases a with
    | unrealizable => exact ha.elim
    | iter => exact ha.elim
    | other => exact ha.elim
    | none =>
      cases b <;> simp only [flexEq, Bool.false_eq_true, false_iff, true_iff] <;>
        first | exact .none | (intro h; cases h) | exact hb.elim
    | nan i =>
      cases b <;> simp only [flexEq, Bool.false_eq_true, false_iff, true_iff] <;>
        first | exact .nan _ _ | (intro h; cases h) | exact hb.elim
    | num x =>
      cases b <;> simp only [flexEq, Bool.false_eq_true, false_iff, true_iff, beq_iff_eq] <;>
        first
        | (intro h; cases h; done)
        | exact ⟨fun h => h ▸ .num _, fun h => by cases h; rfl⟩
        | exact hb.elim
    | inf x =>
      cases b <;> simp only [flexEq, Bool.false_eq_true, false_iff, true_iff, beq_iff_eq] <;>
        first
        | (intro h; cases h; done)
        | exact ⟨fun h => h ▸ .inf _, fun h => by cases h; rfl⟩
        | exact hb.elim
    | str x =>
      cases b <;> simp only [flexEq, Bool.false_eq_true, false_iff, true_iff, beq_iff_eq] <;>
        first
        | (intro h; cases h; done)
        | exact ⟨fun h => h ▸ .str _, fun h => by cases h; rfl⟩
        | exact hb.elim
    | bytes x =>
      cases b <;> simp only [flexEq, Bool.false_eq_true, false_iff, true_iff, beq_iff_eq] <;>
        first
        | (intro h; cases h; done)
        | exact ⟨fun h => h ▸ .bytes _, fun h => by cases h; rfl⟩
        | exact hb.elim
    | list xs =>
      cases b with
      | list ys =>
        simp only [flexEq]
        have hz := zip_same ih (xs := xs) (ys := ys) (by simp only [Val.list.sizeOf_spec] at hs; omega) ha hb
        by_cases hl : xs.length = ys.length
        · rw [if_neg (by simpa using hl), hz]
          exact ⟨fun h => .list _ _ hl h, fun h => by cases h; assumption⟩
        · rw [if_pos (by simpa using hl)]
          exact ⟨fun h => absurd h (by simp), fun h => by cases h; contradiction⟩
      | unrealizable => exact hb.elim
      | _ => simp only [flexEq, Bool.false_eq_true, false_iff]; intro h; cases h
    | tuple xs =>
      cases b with
      | tuple ys =>
        simp only [flexEq]
        have hz := zip_same ih (xs := xs) (ys := ys) (by simp only [Val.tuple.sizeOf_spec] at hs; omega) ha hb
        by_cases hl : xs.length = ys.length
        · rw [if_neg (by simpa using hl), hz]
          exact ⟨fun h => .tuple _ _ hl h, fun h => by cases h; assumption⟩
        · rw [if_pos (by simpa using hl)]
          exact ⟨fun h => absurd h (by simp), fun h => by cases h; contradiction⟩
      | unrealizable => exact hb.elim
      | _ => simp only [flexEq, Bool.false_eq_true, false_iff]; intro h; cases h
    | set xs =>
      cases b with
      | set ys =>
        simp only [flexEq]
        rw [setEq_iff ha.1 hb.1]
        constructor
        · intro h
          exact .set _ _ (by rw [map_norm_eq ha.2, map_norm_eq hb.2]; exact h)
        · intro h
          cases h with
          | set _ _ hk => rw [map_norm_eq ha.2, map_norm_eq hb.2] at hk; exact hk
      | unrealizable => exact hb.elim
      | _ => simp only [flexEq, Bool.false_eq_true, false_iff]; intro h; cases h
    | dict xs =>
      cases b with
      | dict ys =>
        obtain ⟨hxn, hxk, hxp⟩ := ha
        obtain ⟨hyn, hyk, hyp⟩ := hb
        rw [plainItems_iff] at hxp hyp
        have hsz : ∀ p ∈ xs, sizeOf p.2 < n := by
          intro p hp
          have := List.sizeOf_lt_of_mem hp
          obtain ⟨k, v⟩ := p
          simp only [Prod.mk.sizeOf_spec, Val.dict.sizeOf_spec] at this hs ⊢
          omega
        simp only [flexEq]
        constructor
        · intro h
          split at h
          · simp at h
          · rename_i hl
            have hl : xs.length = ys.length := by simpa using hl
            rw [flexItems_iff] at h
            have hsub : ∀ k ∈ xs.map (·.1), k ∈ ys.map (·.1) := by
              intro k hk
              obtain ⟨p, hp, rfl⟩ := List.mem_map.1 hk
              by_cases hm : p.1 ∈ ys.map (·.1)
              · exact hm
              · have := h p hp
                rw [get_of_not_mem hm, flexEq_missing (hxp p hp)] at this
                cases this
            have hkeys := same_items hxn (by simpa using hl) hsub
            refine .dict _ _ ?_ ?_
            · rw [map_norm_fst hxk, map_norm_fst hyk]; exact hkeys
            · intro k k' v v' hkv hkv' he
              have e1 := hxk _ hkv
              have e2 := hyk _ hkv'
              simp only at e1 e2
              rw [e1, e2] at he
              subst he
              have := h _ hkv
              simp only [get_of_mem hyn hkv'] at this
              exact (ih v v' (hsz _ hkv) (hxp _ hkv) (hyp _ hkv')).1 this
        · intro h
          cases h with
          | dict _ _ hk hv =>
            rw [map_norm_fst hxk, map_norm_fst hyk] at hk
            have hl : xs.length = ys.length := by
              have := ((List.perm_ext_iff_of_nodup hxn hyn).2 hk).length_eq
              simpa using this
            rw [if_neg (by simpa using hl), flexItems_iff]
            intro p hp
            have hm := (hk p.1).1 (List.mem_map.2 ⟨p, hp, rfl⟩)
            obtain ⟨q, hq, he⟩ := List.mem_map.1 hm
            obtain ⟨k, v⟩ := p
            obtain ⟨k', v'⟩ := q
            simp only at he
            subst he
            simp only [get_of_mem hyn hq]
            exact (ih v v' (hsz _ hp) (hxp _ hp) (hyp _ hq)).2 (hv _ _ v v' hp hq rfl)
      | unrealizable => exact hb.elim
      | _ => simp only [flexEq, Bool.false_eq_true, false_iff]; intro h; cases h

theorem same_symm {a b : Val} (h : Same a b) : Same b a := by
  induction h with
  | none => exact .none
  | num x => exact .num x
  | inf x => exact .inf x
  | nan i j => exact .nan j i
  | str s => exact .str s
  | bytes s => exact .bytes s
  | list xs ys hl _ ih => exact .list _ _ hl.symm (fun i x y h1 h2 => ih i y x h2 h1)
  | tuple xs ys hl _ ih => exact .tuple _ _ hl.symm (fun i x y h1 h2 => ih i y x h2 h1)
  | dict a b hk _ ih =>
    exact .dict _ _ (fun k => (hk k).symm) (fun k k' v v' h1 h2 he => ih k' k v' v h2 h1 he.symm)
  | set a b hk => exact .set _ _ (fun k => (hk k).symm)
  | iter t i t' i' xs ys hl _ ih => exact .iter _ _ _ _ _ _ hl.symm (fun i x y h1 h2 => ih i y x h2 h1)
  | other t i => exact .other t i

mutual
/-- A value as Python can build it. -/
def Built : Val → Prop
  | .list xs => BuiltAll xs
  | .tuple xs => BuiltAll xs
  | .dict items => (items.map (·.1)).Nodup ∧ BuiltItems items
  | .set _ => True
  | .iter _ _ xs => BuiltAll xs
  | _ => True
def BuiltAll : List Val → Prop
  | [] => True
  | x :: xs => Built x ∧ BuiltAll xs
def BuiltItems : List (Key × Val) → Prop
  | [] => True
  | (_, v) :: rest => Built v ∧ BuiltItems rest
end

theorem builtAll_iff (xs : List Val) : BuiltAll xs ↔ ∀ x ∈ xs, Built x := by
  induction xs with
  | nil => simp [BuiltAll]
  | cons x xs ih => simp [BuiltAll, ih]

theorem builtItems_iff (xs : List (Key × Val)) : BuiltItems xs ↔ ∀ p ∈ xs, Built p.2 := by
  induction xs with
  | nil => simp [BuiltItems]
  | cons p xs ih => obtain ⟨k, v⟩ := p; simp [BuiltItems, ih]

theorem flexEq_self_aux : ∀ (n : Nat) (a : Val), sizeOf a < n → Built a → flexEq a a = true := by
  intro n
  induction n with
  | zero => intro a h; omega
  | succ n ih =>
    intro a hs ha
    have zip : ∀ xs : List Val, sizeOf xs < n → BuiltAll xs → flexZip xs xs = true := by
      intro xs hx hb
      rw [flexZip_iff]
      intro i x y h1 h2
      rw [h1] at h2
      cases h2
      have hm := List.mem_of_getElem? h1
      have := List.sizeOf_lt_of_mem hm
      exact ih x (by omega) ((builtAll_iff xs).1 hb x hm)
    cases a with
    | list xs => simp [flexEq, zip xs (by simp at hs; omega) ha]
    | tuple xs => simp [flexEq, zip xs (by simp at hs; omega) ha]
    | iter t i xs => simp [flexEq]
    | set xs => simp [flexEq, setEq]
    | dict xs =>
      simp only [flexEq, bne_self_eq_false, Bool.false_eq_true, if_false]
      rw [flexItems_iff]
      intro p hp
      obtain ⟨k, v⟩ := p
      rw [get_of_mem ha.1 hp]
      have := List.sizeOf_lt_of_mem hp
      simp only [Prod.mk.sizeOf_spec, Val.dict.sizeOf_spec] at this hs
      exact ih v (by omega) ((builtItems_iff xs).1 ha.2 _ hp)
    | _ => simp [flexEq]

end Verif.Outcome
