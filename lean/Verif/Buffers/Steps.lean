import Verif.Buffers.Refine
/-
Every operation that fits keeps CrossHair's and Python's states together.
-/
set_option linter.unusedSectionVars false
namespace Verif.Buffers
open Verif.Seq (Slice pyGet pySet pySlice pySetSlice lookup)

theorem asByteValue_eq (x : Item) : asByteValue x = pyByte x := by
  cases x with
  | other => rfl
  | int n =>
    show (if (decide (n < 0) || decide (n > 255)) = true then .error .value else .ok n :
      Except Err Int) = if 0 ≤ n ∧ n ≤ 255 then .ok n else .error .value
    by_cases h : 0 ≤ n ∧ n ≤ 255
    · rw [if_pos h]
      have h1 : decide (n < 0) = false := decide_eq_false (by omega)
      have h2 : decide (n > 255) = false := decide_eq_false (by omega)
      simp [h1, h2]
    · rw [if_neg h]
      have : (decide (n < 0) || decide (n > 255)) = true := by
        simp only [Bool.or_eq_true, decide_eq_true_eq]; omega
      rw [this]; rfl

theorem validated_ints : ∀ ns : List Int,
    (if ns.any outOfByteRange then .error .value else .ok ns : Except Err (List Int)) =
      pyBytes (ns.map .int)
  | [] => rfl
  | n :: ns => by
    have ih := validated_ints ns
    simp only [List.map_cons, pyBytes, ← ih, ← asByteValue_eq, asByteValue, List.any_cons]
    by_cases h1 : outOfByteRange n = true
    · simp [h1]
    · by_cases h2 : ns.any outOfByteRange = true
      · simp [h1, h2]
      · simp [h1, h2]

theorem ints_map : ∀ items : List Item, Item.other ∉ items → (ints items).map .int = items
  | [], _ => rfl
  | .int n :: xs, h => by
    show Item.int n :: (ints xs).map .int = _
    rw [ints_map xs (fun hx => h (List.mem_cons_of_mem _ hx))]
  | .other :: xs, h => absurd (List.mem_cons_self ..) h

theorem validated_eq (items : List Item) (h : Item.other ∈ items → pyBytes items = .error .type) :
    validatedByteValues items = pyBytes items := by
  unfold validatedByteValues
  by_cases ho : Item.other ∈ items
  · rw [h ho, if_pos (List.any_eq_true.2 ⟨_, ho, by decide⟩)]
  · have : (items.any fun x => decide (x = .other)) = false := by
      rw [List.any_eq_false]; intro x hx hc
      have := of_decide_eq_true hc
      subst this; exact ho hx
    rw [this, if_neg Bool.false_ne_true, validated_ints, ints_map items ho]

theorem pyBytes_ints (items : List Item) (d : List Int) (h : pyBytes items = .ok d) :
    ints items = d := by
  induction items generalizing d with
  | nil => cases h; rfl
  | cons x xs ih =>
    cases x with
    | other => cases h
    | int n =>
      simp only [pyBytes] at h
      cases hx : pyByte (.int n) with
      | error e => rw [hx] at h; cases h
      | ok m =>
        rw [hx] at h
        simp only at h
        cases hs : pyBytes xs with
        | error e => rw [hs] at h; cases h
        | ok ms =>
          rw [hs] at h
          simp only [Except.ok.injEq] at h
          subst h
          have hm : m = n := by
            unfold pyByte at hx; simp only at hx
            split at hx
            · injection hx with hx; exact hx.symm
            · cases hx
          show n :: ints xs = m :: ms
          rw [ih ms hs, hm]

theorem exported_of {t : PySt} {v : Nat} {p : PyView} (hv : v < t.views) (hp : t.view v = some p) :
    t.exported p.obj = true := by
  unfold PySt.exported
  rw [List.any_eq_true]
  exact ⟨v, List.mem_range.2 hv, by rw [hp]; simp⟩

theorem setData_rel {s : St} {t : PySt} (h : Rel s t) (o : Nat) (data : List Int)
    (hl : data.length = (t.buf o).data.length ∨ t.exported o = false) :
    Rel { s with buf := upd s.buf o ⟨(t.buf o).kind, vals data⟩ } (t.setData o data) := by
  constructor
  · intro o'
    show (upd s.buf o _ o').kind = (upd t.buf o _ o').kind
    unfold upd; split
    · rfl
    · exact h.kind o'
  · intro o'
    show (upd s.buf o _ o').inner = vals (upd t.buf o _ o').data
    unfold upd; split
    · rfl
    · exact h.inner o'
  · exact h.bufs
  · exact h.views
  · exact h.noView
  · intro v p hp
    obtain ⟨h1, h2, h3⟩ := h.someView v p hp
    refine ⟨h1, ⟨h2.used, ?_, ?_⟩, h3⟩
    · show p.start + p.len ≤ (upd t.buf o _ p.obj).data.length
      unfold upd; split
      · rename_i heq
        show p.start + p.len ≤ data.length
        rcases hl with hl | hl
        · rw [hl, ← heq]; exact h2.inside
        · rw [← heq, exported_of h1 hp] at hl; cases hl
      · exact h2.inside
    · show (upd t.buf o _ p.obj).kind = .bytes → _
      unfold upd; split
      · rename_i heq; intro hk; exact h2.ro (by rw [heq]; exact hk)
      · exact h2.ro

theorem store_rel {s : St} {t : PySt} (h : Rel s t) (o : Nat) (r : Except Err (List Int))
    (hb : (t.store o r).1 ≠ .error .buffer) :
    (s.store o (emap vals r)).1 = (t.store o r).1 ∧ Rel (s.store o (emap vals r)).2 (t.store o r).2 := by
  unfold St.store PySt.store at *
  rw [h.kind o]
  cases hk : (t.buf o).kind with
  | bytes => exact ⟨rfl, h⟩
  | array =>
    rw [hk] at hb
    cases r with
    | error e => exact ⟨rfl, h⟩
    | ok data =>
      simp only at hb ⊢
      by_cases hc : data.length ≠ (t.buf o).data.length ∧ t.exported o = true
      · rw [if_pos hc] at hb; exact absurd rfl hb
      · rw [if_neg hc]
        refine ⟨rfl, ?_⟩
        have := setData_rel h o data (by
          by_cases hl : data.length = (t.buf o).data.length
          · exact .inl hl
          · exact .inr (Bool.not_eq_true _ ▸ fun he => hc ⟨hl, he⟩))
        rw [hk] at this
        exact this

theorem new_rel {s : St} {t : PySt} (h : Rel s t) (k : Kind) (data : List Int) :
    Rel (s.new k (vals data)) (t.new k data) := by
  constructor
  · intro o'
    show (upd s.buf s.bufs _ o').kind = (upd t.buf t.bufs _ o').kind
    rw [h.bufs]
    unfold upd; split
    · rfl
    · exact h.kind o'
  · intro o'
    show (upd s.buf s.bufs _ o').inner = vals (upd t.buf t.bufs _ o').data
    rw [h.bufs]
    unfold upd; split
    · rfl
    · exact h.inner o'
  · show s.bufs + 1 = t.bufs + 1
    rw [h.bufs]
  · exact h.views
  · exact h.noView
  · intro v p hp
    obtain ⟨h1, h2, h3⟩ := h.someView v p hp
    have hne : ¬ p.obj = t.bufs := by have := h2.used; omega
    refine ⟨h1, ⟨?_, ?_, ?_⟩, h3⟩
    · show p.obj < t.bufs + 1
      have := h2.used; omega
    · show p.start + p.len ≤ (upd t.buf t.bufs _ p.obj).data.length
      unfold upd; rw [if_neg hne]; exact h2.inside
    · show (upd t.buf t.bufs _ p.obj).kind = .bytes → _
      unfold upd; rw [if_neg hne]; exact h2.ro

theorem setView_rel {s : St} {t : PySt} (h : Rel s t) (dst : Nat) {w : View} {p : PyView}
    (hw : ViewRel w p) (hp : ViewOk t p) : Rel (s.setView dst w) (t.setView dst p) := by
  constructor
  · exact h.kind
  · exact h.inner
  · exact h.bufs
  · show max s.views (dst + 1) = max t.views (dst + 1)
    rw [h.views]
  · intro v
    show upd t.view dst _ v = none → upd s.view dst _ v = none
    unfold upd; split
    · intro hc; cases hc
    · exact h.noView v
  · intro v q
    show upd t.view dst _ v = some q → v < max t.views (dst + 1) ∧ ViewOk _ q ∧
      ∃ w', upd s.view dst _ v = some w' ∧ _
    unfold upd; split
    · rename_i heq
      intro hq; cases hq
      exact ⟨by omega, ⟨hp.used, hp.inside, hp.ro⟩, w, rfl, hw⟩
    · intro hq
      obtain ⟨h1, h2, h3⟩ := h.someView v q hq
      exact ⟨by omega, ⟨h2.used, h2.inside, h2.ro⟩, h3⟩

theorem ofSeq_emap {α β : Type} (f : α → β) (r : Except Seq.PyErr α) :
    ofSeq (emap f r) = emap f (ofSeq r) := by
  cases r with
  | ok v => rfl
  | error e => cases e <;> rfl

theorem andThen_emap {α β γ : Type} (f : β → γ) (r : Except Err α) (g : α → Except Err β)
    (g' : α → Except Err γ) (h : ∀ v, g' v = emap f (g v)) :
    andThen r g' = emap f (andThen r g) := by
  cases r with
  | ok v => exact h v
  | error e => rfl

/-- Writing a byte through a view at a valid index. -/
theorem viewSet_rel {s : St} {t : PySt} (h : Rel s t) {w : View} {p : PyView} (hw : ViewRel w p)
    (hp : ViewOk t p) (hr : p.readonly = false) (i : Int) (x : Item) {k : Nat}
    (hk : pyPos p.len i = some k) :
    s.viewSet w i x = s.setIdx p.obj ((p.start + k : Nat) : Int) x ∧
    (∀ n, pyByte x = .ok n → (s.setIdx p.obj ((p.start + k : Nat) : Int) x).1 = .ok .none ∧
      Rel (s.setIdx p.obj ((p.start + k : Nat) : Int) x).2
        (t.setData p.obj ((t.buf p.obj).data.set (p.start + k) n))) ∧
    (∀ e, pyByte x = .error e → s.setIdx p.obj ((p.start + k : Nat) : Int) x = (.error e, s)) := by
  have hka : (t.buf p.obj).kind = .array := by
    cases hk' : (t.buf p.obj).kind with
    | array => rfl
    | bytes => rw [hp.ro hk'] at hr; cases hr
  have hb : w.start = p.start ∧ w.stop = p.start + p.len := by
    unfold pyPos at hk
    simp only at hk
    rcases hw.bounds with hb | hb
    · exact hb
    · split at hk <;> split at hk <;> first | omega | cases hk
  have hlen : (s.buf p.obj).inner.length = (t.buf p.obj).data.length := by
    rw [h.inner]; simp [vals]
  have hset : ∀ j : Int, (j = ((p.start + k : Nat) : Int) ∨
      (j < 0 ∧ j + (t.buf p.obj).data.length = ((p.start + k : Nat) : Int))) →
      s.setIdx p.obj j x = s.setIdx p.obj ((p.start + k : Nat) : Int) x := by
    intro j hj
    unfold St.setIdx
    congr 1
    cases asByteValue x with
    | error e => rfl
    | ok n =>
      show ofSeq (pySet _ j _) = ofSeq (pySet _ _ _)
      congr 1
      unfold pySet
      simp only [hlen]
      have e1 : (if j < 0 then j + ((t.buf p.obj).data.length : Int) else j) =
          ((p.start + k : Nat) : Int) := by
        split <;> omega
      have e2 : (if ((p.start + k : Nat) : Int) < 0 then
          ((p.start + k : Nat) : Int) + ((t.buf p.obj).data.length : Int)
          else ((p.start + k : Nat) : Int)) = ((p.start + k : Nat) : Int) := by
        rw [if_neg (by omega)]
      rw [e1, e2]
  have hin := hp.inside
  have hk2 : (i < 0 ∧ i + p.len = k ∧ k < p.len) ∨ (0 ≤ i ∧ i = k ∧ k < p.len) := by
    unfold pyPos at hk
    simp only at hk
    by_cases hi : i < 0
    · rw [if_pos hi] at hk
      split at hk
      · injection hk with hk; left; omega
      · cases hk
    · rw [if_neg hi] at hk
      split at hk
      · injection hk with hk; right; omega
      · cases hk
  refine ⟨?_, ?_, ?_⟩
  · unfold St.viewSet
    rw [hw.ro, hr, if_neg Bool.false_ne_true, hw.obj]
    simp only [hlen]
    rcases hk2 with ⟨h1, h2, h3⟩ | ⟨h1, h2, h3⟩
    · rw [if_pos h1]
      apply hset
      right; omega
    · rw [if_neg (by omega)]
      apply hset
      left; omega
  · intro n hn
    have hps : ofSeq (pySet (s.buf p.obj).inner ((p.start + k : Nat) : Int) (Cell.val n)) =
        .ok (vals ((t.buf p.obj).data.set (p.start + k) n)) := by
      rw [h.inner, vals, pySet_map]
      have : pySet (t.buf p.obj).data ((p.start + k : Nat) : Int) n =
          .ok ((t.buf p.obj).data.set (p.start + k) n) := by
        unfold pySet
        simp only
        rw [if_neg (by omega : ¬ ((p.start + k : Nat) : Int) < 0), if_pos (by
          constructor
          · omega
          · rcases hk2 with h3 | h3 <;> omega), Int.toNat_natCast]
      rw [this]; rfl
    unfold St.setIdx
    rw [asByteValue_eq, hn]
    show (s.store p.obj (ofSeq (pySet _ _ _))).1 = _ ∧ Rel (s.store p.obj (ofSeq (pySet _ _ _))).2 _
    rw [hps]
    unfold St.store
    rw [h.kind, hka]
    refine ⟨rfl, ?_⟩
    have := setData_rel h p.obj ((t.buf p.obj).data.set (p.start + k) n) (.inl (by simp))
    rw [hka] at this
    exact this
  · intro e he
    unfold St.setIdx
    rw [asByteValue_eq, he]
    unfold St.store
    rw [h.kind, hka]
    rfl

/-- The stretch a composed slice means, for bounds within the view. -/
theorem viewSetSlice_rel {s : St} {t : PySt} (h : Rel s t) {w : View} {p : PyView}
    (hw : ViewRel w p) (hp : ViewOk t p) (hr : p.readonly = false) (a b : Int) (xs : List Int)
    (ha : 0 ≤ a) (ha' : a ≤ p.len) (hb : -(p.len : Int) ≤ b) (hb' : b ≤ p.len) :
    (s.viewSetSlice w (some a) (some b) (vals xs)).1 = (t.viewStore p (some a) (some b) xs).1 ∧
    Rel (s.viewSetSlice w (some a) (some b) (vals xs)).2
      (t.viewStore p (some a) (some b) xs).2 := by
  have hka : (t.buf p.obj).kind = .array := by
    cases hk' : (t.buf p.obj).kind with
    | array => rfl
    | bytes => rw [hp.ro hk'] at hr; cases hr
  have hlen : (s.buf p.obj).inner.length = (t.buf p.obj).data.length := by
    rw [h.inner]; simp [vals]
  have hin := hp.inside
  -- the bounds in the object
  obtain ⟨start, stop, hcomp, hpos⟩ : ∃ start stop : Int,
      composeSlices w.start ((s.buf w.obj).inner.length - w.stop) (some a) (some b) =
        .ok (start, stop) ∧
      ∃ a' b' : Nat, Seq.pyIndices ⟨some start, some stop, none⟩ (t.buf p.obj).data.length =
          .ok ((a' : Int), (b' : Int), 1) ∧ a' ≤ (t.buf p.obj).data.length ∧
          b' ≤ (t.buf p.obj).data.length ∧ b' - a' = (pyStretch p.len (some a) (some b)).2 ∧
          (a' = p.start + (pyStretch p.len (some a) (some b)).1 ∨
            (b' - a' = 0)) := by
    refine ⟨_, _, rfl, ?_⟩
    rw [hw.obj, hlen]
    rw [if_pos (ge_iff_le.2 ha)]
    have hs1 : (pyStretch p.len (some a) (some b)).1 = a.toNat := by
      unfold pyStretch; simp only; rw [if_neg (by omega)]; omega
    have hs2 : (pyStretch p.len (some a) (some b)).2 =
        (if b < 0 then (b + p.len).toNat else b.toNat) - a.toNat := by
      unfold pyStretch; simp only; rw [if_neg (by omega : ¬ a < 0)]; split <;> omega
    rw [hs1, hs2]
    have key : Seq.pyIndices ⟨some (a + w.start), some (if b ≥ 0 then b + w.start else
        b - (((t.buf p.obj).data.length : Int) - w.stop)), none⟩ (t.buf p.obj).data.length =
        .ok ((min (a + w.start).toNat (t.buf p.obj).data.length : Nat),
          ((if b ≥ 0 then min (b + w.start).toNat (t.buf p.obj).data.length else
            (b + w.stop).toNat : Nat) : Int), 1) := by
      unfold Seq.pyIndices
      simp only [Option.getD_none]
      have hw0 : 0 ≤ w.start ∧ w.stop ≤ (t.buf p.obj).data.length ∧ 0 ≤ b + w.stop ∨
          0 ≤ w.start ∧ w.stop ≤ (t.buf p.obj).data.length ∧ b ≥ 0 := by
        rcases hw.bounds with hb | hb <;> omega
      rw [if_neg (by omega : ¬ (1 : Int) = 0)]
      simp only [if_neg (by omega : ¬ (1 : Int) < 0)]
      congr 2
      · rw [if_neg (by omega)]; omega
      · congr 1
        by_cases hbb : b ≥ 0
        · rw [if_pos hbb, if_pos hbb, if_neg (by omega)]; omega
        · rw [if_neg hbb, if_neg hbb]
          by_cases hneg : b - (((t.buf p.obj).data.length : Int) - w.stop) < 0
          · rw [if_pos hneg]; omega
          · omega
    refine ⟨_, _, key, by omega, ?_, ?_, ?_⟩
    · split
      · omega
      · rcases hw.bounds with hb | hb <;> omega
    · rcases hw.bounds with hc | hc
      · by_cases hbb : b ≥ 0
        · rw [if_pos hbb, if_neg (by omega)]; omega
        · rw [if_neg hbb, if_pos (by omega)]; omega
      · have : a = 0 := by omega
        have : b = 0 := by omega
        subst a b
        simp
    · rcases hw.bounds with hc | hc
      · left; omega
      · right
        have : a = 0 := by omega
        have : b = 0 := by omega
        subst a b
        simp
  obtain ⟨a', b', hidx, hla, hlb, hw2, hst⟩ := hpos
  have hslice : ∃ old : List Cell, pySlice (s.buf w.obj).inner ⟨some start, some stop, none⟩ =
      .ok old ∧ old.length = b' - a' := by
    unfold pySlice
    rw [hw.obj, hlen, hidx]
    refine ⟨_, rfl, ?_⟩
    by_cases hab : a' ≤ b'
    · rw [Seq.elems_one _ (by rw [hlen]; omega) _ (by omega) (by omega)]
      simp [hlen]; omega
    · rw [Seq.elems_empty_up _ (by omega) (by omega)]
      simp; omega
  obtain ⟨old, hold, hol⟩ := hslice
  have hset : ofSeq (pySetSlice (s.buf p.obj).inner ⟨some start, some stop, none⟩ (vals xs)) =
      .ok (vals ((t.buf p.obj).data.take a' ++ xs ++ (t.buf p.obj).data.drop (max a' b'))) := by
    have e : pySetSlice (t.buf p.obj).data ⟨some start, some stop, none⟩ xs =
        .ok ((t.buf p.obj).data.take a' ++ xs ++ (t.buf p.obj).data.drop (max a' b')) := by
      unfold pySetSlice
      rw [hidx]
      have : (max (a' : Int) (b' : Int)).toNat = max a' b' := by omega
      simp [this]
    rw [h.inner, vals, vals, pySetSlice_map, e]
    rfl
  unfold St.viewSetSlice PySt.viewStore
  rw [hw.ro, hr, if_neg Bool.false_ne_true, if_neg Bool.false_ne_true]
  simp only [hcomp, hold]
  by_cases hx : (pyStretch p.len (some a) (some b)).2 = xs.length
  · have hxo : (vals xs).length = old.length := by rw [hol, hw2, hx]; simp [vals]
    rw [if_pos hx, if_neg (by simp [hxo]), hw.obj, hset]
    unfold St.store
    rw [h.kind, hka]
    refine ⟨rfl, ?_⟩
    have hdata : (t.buf p.obj).data.take a' ++ xs ++ (t.buf p.obj).data.drop (max a' b') =
        overwrite (t.buf p.obj).data (p.start + (pyStretch p.len (some a) (some b)).1) xs := by
      unfold overwrite
      rcases hst with hst | hst
      · rw [← hst]
        congr 2
        omega
      · have hx0 : xs = [] := by
          apply List.eq_nil_of_length_eq_zero; omega
        subst hx0
        have : max a' b' = a' := by omega
        simp [this]
    have := setData_rel h p.obj _ (.inl (show ((t.buf p.obj).data.take a' ++ xs ++
        (t.buf p.obj).data.drop (max a' b')).length = _ by
      simp; omega))
    rw [hka] at this
    rw [← hdata]
    exact this
  · have hxo : ¬ (vals xs).length = old.length := by rw [hol, hw2]; simp [vals]; omega
    rw [if_neg hx, if_pos hxo]
    exact ⟨rfl, h⟩

end Verif.Buffers
