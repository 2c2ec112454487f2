import Verif.Numeric.Float
namespace Verif.Numeric

set_option linter.unusedTactic false
set_option linter.unreachableTactic false

theorem smtInt_floordiv (x y : Int) (h : y ≠ 0) : smtInt .floordiv x y = .ok (x.fdiv y) := by
  have := Ints.smtFloorDiv_eq_fdiv x y h
  unfold Ints.smtFloorDiv at this
  rw [if_neg h] at this
  simp only [smtInt]
  rw [if_neg h]
  by_cases h1 : y ≥ 0 <;> by_cases h2 : x ≥ 0 <;>
    simp only [h1, h2, if_true, if_false, Except.ok.injEq] at this ⊢ <;> exact this

theorem smtInt_mod (x y : Int) (h : y ≠ 0) : smtInt .mod x y = .ok (x.fmod y) := by
  have := Ints.smtMod_eq_fmod x y h
  unfold Ints.smtMod at this
  rw [if_neg h] at this
  simp only [smtInt]
  rw [if_neg h]
  by_cases h1 : y ≥ 0 ∨ x % y = 0
  · rw [if_pos h1] at this ⊢; injection this with e; rw [e]
  · rw [if_neg h1] at this ⊢; injection this with e; rw [e]

theorem bit_testBit (x : Int) (i : Nat) : Ints.bit x i = x.testBit i := by cases x <;> rfl

theorem land_of_bits {a b r : Int} (h : ∀ i, Ints.bit r i = (Ints.bit a i && Ints.bit b i)) :
    r = a.land b := by
  apply Ints.bits_determine
  intro i
  rw [h, bit_testBit, bit_testBit, bit_testBit, Int.testBit_land]

theorem land_comm (a b : Int) : a.land b = b.land a := by
  apply Ints.bits_determine
  intro i
  rw [bit_testBit, bit_testBit, Int.testBit_land, Int.testBit_land, Bool.and_comm]

theorem andMask_eq {a b : Int} (h0 : b ≠ 0) (h : b > 0 ∧ (b + 1).land b = 0) :
    Ints.andMask a b =
      some (if a ≥ 0 then a % (b + 1) else b - ((-a - 1) % (b + 1))) := by
  have e : (b + 1).toNat &&& b.toNat = 0 := by
    obtain ⟨h1, h2⟩ := h
    obtain ⟨m, rfl⟩ : ∃ m : Nat, b = m := ⟨b.toNat, by omega⟩
    have : ((m : Int) + 1).land m = ((m + 1 &&& m : Nat) : Int) := rfl
    rw [this] at h2
    have e1 : ((m : Int) + 1).toNat = m + 1 := by omega
    rw [e1, Int.toNat_natCast]
    exact_mod_cast h2
  unfold Ints.andMask
  rw [if_neg h0]
  simp only
  rw [if_pos ⟨h.1, e⟩]
  split <;> rfl

theorem intVal_realize (v : Val) : intVal (realize v) = intVal v := by cases v <;> rfl

theorem andPair_eq (E : Env) {a b : Val} {x y : Int} (ha : intVal a = some x)
    (hb : intVal b = some y) :
    ∃ v, andPair E a b = .ok v ∧ num E v = .int (x.land y) := by
  have hn : nativeInt E .and (realize a) (realize b) = .ok (.pyInt (x.land y)) := by
    unfold nativeInt
    rw [intVal_realize, intVal_realize, ha, hb]
    rfl
  unfold andPair
  rw [ha, hb]
  simp only
  split
  · rename_i h0
    refine ⟨_, rfl, ?_⟩
    subst h0
    show Num.int 0 = _
    congr 1
    apply land_of_bits
    intro i
    rw [bit_testBit 0]
    simp [Int.testBit]
  · rename_i h0
    split
    · rename_i hm
      have e := andMask_eq (a := x) h0 hm.2
      have := land_of_bits (Ints.and_mask_bits e)
      split
      · rename_i hx
        rw [if_pos hx] at this
        exact ⟨_, rfl, congrArg Num.int this⟩
      · rename_i hx
        rw [if_neg hx] at this
        exact ⟨_, rfl, congrArg Num.int this⟩
    · exact ⟨_, hn, rfl⟩

/-- Masking gives the conjunction. -/
theorem andInts_eq (E : Env) {a b : Val} {x y : Int} (ha : intVal a = some x)
    (hb : intVal b = some y) :
    ∃ v, andInts E a b = .ok v ∧ num E v = .int (x.land y) := by
  unfold andInts
  split
  · obtain ⟨v, h1, h2⟩ := andPair_eq E hb ha
    exact ⟨v, h1, by rw [h2, land_comm]⟩
  · exact andPair_eq E ha hb

theorem fdiv_pow_ne (y : Nat) : (2 : Int) ^ y ≠ 0 := by positivity

/-- Shifting. -/
theorem shift_eq (E : Env) (k : Nat) {op : Op} (hop : op = .lshift ∨ op = .rshift) {a b : Val}
    {x y : Int} (ha : intVal a = some x) (hb : intVal b = some y) :
    (shiftInts (dispatch E (binopWith T E (k + 3))) op a b).map (num E) =
      Py.iarith .fin op x y := by
  unfold shiftInts
  rw [hb]
  simp only
  by_cases hy : y < 0
  · rw [if_pos hy]
    rcases hop with rfl | rfl <;> simp [Py.iarith, hy, Except.map]
  rw [if_neg hy]
  by_cases hs : a.isSym
  · rcases hop with rfl | rfl
    · rw [if_pos rfl, int_arith_dispatch E k .mul rfl ha rfl (.inl hs)]
      simp [Py.iarith, hy, Except.map, smtInt, num]
    · rw [if_neg (by decide), int_arith_dispatch E k .floordiv rfl ha rfl (.inl hs),
        smtInt_floordiv _ _ (fdiv_pow_ne _)]
      simp [Py.iarith, hy, Except.map, num]
  · have hd : ∀ o n, dispatch E (binopWith T E (k + 3)) o a (.pyInt n) =
        nativeInt E o a (.pyInt n) := by
      intro o n
      unfold dispatch
      rw [if_neg hs, if_neg (by simp [Val.isSym])]
    rcases hop with rfl | rfl
    · rw [if_pos rfl, hd]
      unfold nativeInt
      rw [ha]
      simp [intVal, Py.iarith, hy, Except.map, num, bind, Except.bind]
    · rw [if_neg (by decide), hd]
      unfold nativeInt
      rw [ha]
      have := fdiv_pow_ne y.toNat
      simp [intVal, Py.iarith, hy, Except.map, num, bind, Except.bind]

theorem bit_oper (E : Env) {op : Op} (hop : op.isBit) {a b : Val} {x y : Int}
    (ha : intVal a = some x) (hb : intVal b = some y) (hs : a.isSym ∨ b.isSym) :
    (oper E op a b).map (num E) = Py.iarith .fin op x y := by
  rw [oper_eq]
  have hno : ∀ {P : Prop}, ((false = true) ∨ (false = true)) → P := fun h =>
    h.elim (fun h => absurd h Bool.false_ne_true) (fun h => absurd h Bool.false_ne_true)
  cases op <;> first | exact absurd hop Bool.false_ne_true | skip
  case and =>
    by_cases hbb : (∃ p, truth a = some p) ∧ ∃ q, truth b = some q
    · obtain ⟨⟨p, hp⟩, q, hq⟩ := hbb
      cases a <;> cases hp <;> cases b <;> cases hq <;> cases ha <;> cases hb <;>
        first
        | exact hno hs
        | (cases p <;> cases q <;> rfl)
    · have e : operT E .and a b = andInts E a b := by
        cases a <;> cases ha <;> cases b <;> cases hb <;>
          first
          | rfl
          | exact hno hs
          | exact absurd ⟨⟨_, rfl⟩, _, rfl⟩ hbb
      obtain ⟨v, h1, h2⟩ := andInts_eq E ha hb
      rw [e, h1]
      exact congrArg Except.ok h2
  case or =>
    cases a <;> cases ha <;> cases b <;> cases hb <;>
      first
      | rfl
      | exact hno hs
      | (rename_i p q; cases p <;> cases q <;> rfl)
  case xor =>
    cases a <;> cases ha <;> cases b <;> cases hb <;>
      first
      | rfl
      | exact hno hs
      | (rename_i p q; cases p <;> cases q <;> rfl)
  case rshift =>
    rw [← shift_eq E 2 (.inr rfl) ha hb]
    cases a <;> cases ha <;> cases b <;> cases hb <;> first | rfl | exact hno hs
  case lshift =>
    rw [← shift_eq E 2 (.inl rfl) ha hb]
    cases a <;> cases ha <;> cases b <;> cases hb <;> first | rfl | exact hno hs

end Verif.Numeric
