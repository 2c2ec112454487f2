import Verif.Seq.Lemmas
namespace Verif.Seq
open Range

variable {α : Type}

/-- The list a sequence stands for. -/
def Sq.toList : Sq α → List α
  | lst xs => xs
  | tup xs => xs
  | cat a b => a.toList ++ b.toList
  | view s start stop => (s.toList.take stop.toNat).drop start.toNat

/-- Views lie within the sequence they look at, or are empty. -/
def Sq.WF : Sq α → Prop
  | lst _ => True
  | tup _ => True
  | cat a b => a.WF ∧ b.WF
  | view s start stop => s.WF ∧ 0 ≤ start ∧ start ≤ stop ∧ (stop ≤ s.toList.length ∨ start = stop)

theorem len_toList : ∀ {q : Sq α}, q.WF → q.len = (q.toList.length : Int) := by
  intro q
  induction q with
  | lst xs => intro _; rfl
  | tup xs => intro _; rfl
  | cat a b iha ihb => intro h; simp [Sq.len, Sq.toList, iha h.1, ihb h.2]
  | view s start stop ih =>
    intro h
    obtain ⟨_, h1, h2, h3⟩ := h
    simp [Sq.len, Sq.toList]
    omega

theorem lookup_drop_take (xs : List α) {a b : Int} (h0 : 0 ≤ a) (h1 : a ≤ b) (h2 : b ≤ xs.length)
    (i : Int) : lookup ((xs.take b.toNat).drop a.toNat) i =
      if 0 ≤ i ∧ i < b - a then lookup xs (a + i) else none := by
  unfold lookup
  split
  · rename_i hi
    rw [List.getElem?_drop, List.getElem?_take]
    split
    · rw [if_pos (by omega), if_pos (by omega)]
      congr 1
      omega
    · rw [if_neg (by omega)]
  · rw [if_neg (by omega)]

theorem checkIdx_spec (i len : Int) :
    checkIdx i len = if 0 ≤ normalizeIdx i len ∧ normalizeIdx i len < len
      then .ok (normalizeIdx i len) else .error .indexError := rfl

/-- Indexing after `check_idx`, in terms of positions. -/
theorem check_get (xs : List α) (len : Int) (hl : len = xs.length) (i : Int)
    (f : Int → Except PyErr α)
    (hf : ∀ j, 0 ≤ j → j < len → f j = (match lookup xs j with
      | some v => .ok v | none => .error .indexError)) :
    (match checkIdx i len with | .error e => .error e | .ok j => f j) = pyGet xs i := by
  subst hl
  rw [checkIdx_spec]
  unfold pyGet
  have hn : (if i < 0 then i + (xs.length : Int) else i) = normalizeIdx i xs.length := rfl
  rw [hn]
  generalize normalizeIdx i xs.length = j
  by_cases hc : 0 ≤ j ∧ j < xs.length
  · rw [if_pos hc]
    exact hf j hc.1 hc.2
  · rw [if_neg hc]
    have : lookup xs j = none := by
      by_cases h0 : 0 ≤ j
      · exact lookup_none_ge xs (by omega)
      · exact lookup_none_neg xs (by omega)
    rw [this]

theorem pyGet_nonneg (xs : List α) {j : Int} (h : 0 ≤ j) :
    pyGet xs j = (match lookup xs j with | some v => .ok v | none => .error .indexError) := by
  unfold pyGet; rw [if_neg (by omega)]; rfl

theorem get_toList : ∀ {q : Sq α}, q.WF → ∀ i, q.get i = pyGet q.toList i := by
  intro q
  induction q with
  | lst xs => intro _ i; rfl
  | tup xs => intro _ i; rfl
  | cat a b iha ihb =>
    intro h i
    have la := len_toList h.1
    have lb := len_toList h.2
    simp only [Sq.get, Sq.toList]
    apply check_get (a.toList ++ b.toList) _ (by simp [la, lb])
    intro j h0 h1
    rw [la]
    split
    · rename_i hlt
      rw [iha h.1, lookup_append_left _ _ hlt, pyGet_nonneg _ h0]
    · rename_i hlt
      rw [ihb h.2, lookup_append_right _ _ (by omega), pyGet_nonneg _ (by omega)]
  | view s start stop ih =>
    intro h i
    obtain ⟨hs, h0, h1, h2⟩ := h
    simp only [Sq.get, Sq.toList]
    apply check_get _ _ (by simp; omega)
    intro j j0 j1
    have h2 : stop ≤ s.toList.length := by omega
    rw [ih hs, lookup_drop_take _ h0 h1 h2, if_pos ⟨j0, j1⟩, pyGet_nonneg _ (by omega)]

theorem mapE_spec {β : Type} {f : Int → Except PyErr β} {g : Int → Option β} : ∀ {l : List Int},
    (∀ i ∈ l, ∃ v, f i = .ok v ∧ g i = some v) → mapE f l = .ok (l.filterMap g) := by
  intro l
  induction l with
  | nil => intro _; rfl
  | cons i l ih =>
    intro h
    obtain ⟨v, h1, h2⟩ := h i (by simp)
    rw [mapE, h1, ih (fun j hj => h j (by simp [hj])), List.filterMap_cons, h2]

theorem lookup_some (xs : List α) {i : Int} (h0 : 0 ≤ i) (h1 : i < xs.length) :
    ∃ v, lookup xs i = some v := by
  unfold lookup
  rw [if_pos h0]
  exact ⟨xs[i.toNat]'(by omega), List.getElem?_eq_getElem _⟩

/-- A stretch of a list. -/
theorem elems_one (xs : List α) {b : Int} (hb : b ≤ xs.length) (a : Int) : 0 ≤ a → a ≤ b →
    elems xs a b 1 = (xs.take b.toNat).drop a.toNat := by
  rw [elems_up xs (by omega)]
  induction a using iterUp.induct (stop := b) (step := 1) with
  | case1 a h ih =>
    intro h0 h1
    rw [iterUp, if_pos h]
    obtain ⟨v, hv⟩ := lookup_some xs h0 (show a < xs.length by omega)
    rw [List.filterMap_cons, hv, ih (by omega) (by omega)]
    have hlt : a.toNat < (xs.take b.toNat).length := by rw [List.length_take]; omega
    have := List.drop_eq_getElem_cons hlt
    rw [this]
    have e1 : v = (xs.take b.toNat)[a.toNat] := by
      unfold lookup at hv
      rw [if_pos h0, List.getElem?_eq_getElem (by omega), Option.some.injEq] at hv
      rw [List.getElem_take]; exact hv.symm
    have e2 : (a + 1).toNat = a.toNat + 1 := by omega
    rw [← e1, e2]
  | case2 a h =>
    intro h0 h1
    have : a = b := by omega
    subst this
    rw [iterUp_nil (Int.le_refl _)]
    simp

theorem iter_toList : ∀ {q : Sq α}, q.WF → q.iter = .ok q.toList := by
  intro q
  induction q with
  | lst xs => intro _; rfl
  | tup xs => intro _; rfl
  | cat a b iha ihb => intro h; simp [Sq.iter, iha h.1, ihb h.2, Sq.toList]
  | view s start stop ih =>
    intro h
    obtain ⟨hs, h0, h1, h2⟩ := h
    simp only [Sq.iter, Sq.toList]
    rcases h2 with h2 | h2
    rotate_left
    · subst h2
      have : Range.Rng.iter ⟨start, start, 1⟩ = [] := iterUp_nil (Int.le_refl _)
      rw [this]
      simp [mapE]
    rw [mapE_spec (g := lookup s.toList), ← elems_one _ h2 _ h0 h1]
    · rfl
    · intro i hi
      have hi' : i ∈ iterUp start stop 1 := hi
      have := mem_iterUp_lt hi'
      obtain ⟨v, hv⟩ := lookup_some s.toList (show 0 ≤ i by omega) (by omega)
      refine ⟨v, ?_, hv⟩
      rw [get_toList hs, pyGet_nonneg _ (by omega), hv]

theorem concat_toList (a b : Sq α) : (concat a b).toList = a.toList ++ b.toList := by
  unfold concat
  split <;> simp [Sq.toList]

theorem concat_WF {a b : Sq α} (ha : a.WF) (hb : b.WF) : (concat a b).WF := by
  unfold concat
  split <;> simp_all [Sq.WF]

/-- A result that stands for what Python computes on lists: the same error, or a well-formed
sequence of the same elements. -/
def Means (r : Except PyErr (Sq α)) (p : Except PyErr (List α)) : Prop :=
  match p with
  | .error e => r = .error e
  | .ok ys => ∃ q, r = .ok q ∧ q.WF ∧ q.toList = ys

theorem means_ok {r : Except PyErr (Sq α)} {ys : List α} (h : Means r (.ok ys)) :
    ∃ q, r = .ok q ∧ q.WF ∧ q.toList = ys := h

theorem means_base (p : Except PyErr (List α)) (f : List α → Sq α)
    (hf : ∀ ys, (f ys).WF ∧ (f ys).toList = ys) : Means (p.map f) p := by
  cases p with
  | error e => rfl
  | ok ys => exact ⟨f ys, rfl, hf ys⟩

/-- `slice.indices` on a slice with a positive (or missing) step. -/
theorem pyIndices_up {s : Slice} (n : Nat) (h : s.step.all (fun c => decide (c > 0)) = true) :
    pyIndices s n = .ok ((s.start.map fun (i : Int) => if i < 0 then max (i + n) 0 else min i n).getD 0,
      (s.stop.map fun (i : Int) => if i < 0 then max (i + n) 0 else min i n).getD n, s.step.getD 1) := by
  have hc : 0 < s.step.getD 1 := by
    cases hs : s.step with
    | none => simp
    | some c => rw [hs] at h; simpa using h
  unfold pyIndices
  rw [if_neg (by omega)]
  simp only [if_neg (show ¬ s.step.getD 1 < 0 by omega)]
  cases s.start <;> cases s.stop <;> rfl

theorem step_pos {s : Slice} (h : s.step.all (fun c => decide (c > 0)) = true) :
    0 < s.step.getD 1 := by
  cases hs : s.step with
  | none => simp
  | some c => rw [hs] at h; simpa using h

theorem pySlice_eq_up {s : Slice} (xs : List α) (h : s.step.all (fun c => decide (c > 0)) = true) :
    pySlice xs s = .ok (elems xs
      ((s.start.map fun (i : Int) => if i < 0 then max (i + xs.length) 0 else min i xs.length).getD 0)
      ((s.stop.map fun (i : Int) => if i < 0 then max (i + xs.length) 0 else min i xs.length).getD xs.length)
      (s.step.getD 1)) := by
  unfold pySlice; rw [pyIndices_up _ h]

/-- Elements before the end of the first list do not depend on what follows. -/
theorem elems_append_first (xs ys : List α) {a b c : Int} (hc : 0 < c) (hb : b ≤ xs.length) :
    elems (xs ++ ys) a b c = elems xs a b c := by
  rw [elems_up _ hc, elems_up _ hc]
  apply filterMap_congr'
  intro x hx
  exact lookup_append_left _ _ (by have := mem_iterUp_lt hx; omega)

/-- Elements from the end of the first list on are those of the second. -/
theorem elems_append_second (xs ys : List α) {a b c : Int} (hc : 0 < c) (ha : (xs.length : Int) ≤ a) :
    elems (xs ++ ys) a b c = elems ys (a - xs.length) (b - xs.length) c := by
  rw [elems_up _ hc, elems_up _ hc]
  have := iterUp_shift (b - xs.length) c xs.length (a - xs.length)
  rw [show a - (xs.length : Int) + xs.length = a by omega,
    show b - (xs.length : Int) + xs.length = b by omega] at this
  rw [this, List.filterMap_map]
  apply filterMap_congr'
  intro x hx
  have := mem_iterUp_lt hx
  simp only [Function.comp]
  rw [lookup_append_right xs ys (by omega)]
  congr 1
  omega

/-- The first fast path of `SequenceConcatenation.__getitem__`. -/
theorem fast_first (xs ys : List α) (s : Slice) (h : s.step.all (fun c => decide (c > 0)) = true)
    (h1 : s.stop.any (fun t => decide (0 ≤ t ∧ t ≤ (xs.length : Int))) = true)
    (h2 : s.start.all (fun t => decide (t ≥ 0)) = true) :
    pySlice (xs ++ ys) s = pySlice xs s := by
  have hc := step_pos h
  obtain ⟨start, stop, step⟩ := s
  rw [pySlice_eq_up _ h, pySlice_eq_up _ h]
  congr 1
  cases stop with
  | none => simp at h1
  | some t =>
    have h1' : 0 ≤ t ∧ t ≤ xs.length := by simpa using h1
    simp only [Option.map_some, Option.getD_some, List.length_append]
    rw [if_neg (by omega), if_neg (by omega), show min t ((xs.length + ys.length : Nat) : Int) = t by omega,
      show min t (xs.length : Int) = t by omega, elems_append_first _ _ hc h1'.2]
    cases start with
    | none => rfl
    | some a =>
      have h2' : 0 ≤ a := by simpa using h2
      simp only [Option.map_some, Option.getD_some]
      rw [if_neg (by omega), if_neg (by omega)]
      by_cases hat : t ≤ a
      · rw [elems_empty_up _ hc (by omega), elems_empty_up _ hc (by omega)]
      · rw [show min a ((xs.length + ys.length : Nat) : Int) = a by omega,
          show min a (xs.length : Int) = a by omega]

/-- The second fast path. -/
theorem fast_first_neg (xs ys : List α) (s : Slice)
    (h : s.step.all (fun c => decide (c > 0)) = true)
    (h1 : s.stop.any (fun t => decide (0 ≤ t ∧ t ≤ (xs.length : Int))) = true)
    (h2 : s.start.any (fun t => decide (t < -(ys.length : Int))) = true) :
    pySlice (xs ++ ys) s = pySlice xs ⟨s.start.map (· + (ys.length : Int)), s.stop, s.step⟩ := by
  have hc := step_pos h
  obtain ⟨start, stop, step⟩ := s
  dsimp only at h h1 h2 hc ⊢
  rw [pySlice_eq_up (s := ⟨start, stop, step⟩) _ h, pySlice_eq_up (s := ⟨_, stop, step⟩) _ h]
  congr 1
  cases stop with
  | none => simp at h1
  | some t =>
    have h1' : 0 ≤ t ∧ t ≤ xs.length := by simpa using h1
    cases start with
    | none => simp at h2
    | some a =>
      have h2' : a < -(ys.length : Int) := by simpa using h2
      simp only [Option.map_some, Option.getD_some, List.length_append]
      rw [if_neg (show ¬ t < 0 by omega), if_neg (show ¬ t < 0 by omega),
        show min t ((xs.length + ys.length : Nat) : Int) = t by omega,
        show min t (xs.length : Int) = t by omega, elems_append_first _ _ hc h1'.2,
        if_pos (by omega), if_pos (by omega)]
      congr 1
      omega

/-- The third fast path. -/
theorem fast_second (xs ys : List α) (s : Slice) (h : s.step.all (fun c => decide (c > 0)) = true)
    (h1 : s.start.any (fun t => decide (t ≥ (xs.length : Int))) = true)
    (h2 : ¬ (s.stop.any (fun t => decide (0 ≤ t ∧ t ≤ (xs.length : Int))) = true ∧
      s.start.all (fun t => decide (t ≥ 0)) = true)) :
    pySlice (xs ++ ys) s = pySlice ys ⟨s.start.map (· - (xs.length : Int)),
      s.stop.map (fun t => if t < 0 then t else t - (xs.length : Int)), s.step⟩ := by
  have hc := step_pos h
  obtain ⟨start, stop, step⟩ := s
  dsimp only at h h1 h2 hc ⊢
  rw [pySlice_eq_up (s := ⟨start, stop, step⟩) _ h, pySlice_eq_up (s := ⟨_, _, step⟩) _ h]
  congr 1
  cases start with
  | none => simp at h1
  | some a =>
    have h1' : (xs.length : Int) ≤ a := by simpa using h1
    simp only [Option.map_some, Option.getD_some, List.length_append]
    rw [if_neg (show ¬ a < 0 by omega), if_neg (show ¬ a - (xs.length : Int) < 0 by omega),
      elems_append_second _ _ hc (by omega),
      show min a ((xs.length + ys.length : Nat) : Int) - xs.length = min (a - xs.length) ys.length by omega]
    cases stop with
    | none =>
      simp only [Option.map_none, Option.getD_none]
      congr 1
      omega
    | some t =>
      have h2' : ¬ (0 ≤ t ∧ t ≤ xs.length) := by
        intro hh
        exact h2 ⟨by simpa using hh, by simp; omega⟩
      simp only [Option.map_some, Option.getD_some]
      by_cases ht : t < 0
      · simp only [if_pos ht]
        by_cases hneg : t + ys.length < 0
        · rw [elems_empty_up _ hc (by omega), elems_empty_up _ hc (by omega)]
        · congr 1
          omega
      · simp only [if_neg ht]
        rw [if_neg (by omega)]
        congr 1
        omega

/-- Slicing a lazy sequence means slicing the list it stands for. -/
theorem getSlice_means : ∀ {q : Sq α}, q.WF → ∀ s, Means (q.getSlice s) (pySlice q.toList s) := by
  intro q
  induction q with
  | lst xs => intro _ s; exact means_base _ _ fun ys => ⟨trivial, rfl⟩
  | tup xs => intro _ s; exact means_base _ _ fun ys => ⟨trivial, rfl⟩
  | cat a b iha ihb =>
    intro h s
    have la := len_toList h.1
    have lb := len_toList h.2
    have general : Means (match pyIndices s (a.len + b.len).toNat with
        | .error e => .error e
        | .ok (start, stop, step) =>
          let cut := if step > 0 then a.len else a.len - 1
          let p := cutSlice start stop step cut
          if step > 0 then
            both (a.getSlice (clampSlice p.1.1 p.1.2 step a.len))
              (b.getSlice (clampSlice (p.2.1 - a.len) (p.2.2 - a.len) step b.len)) concat
          else
            both (b.getSlice (clampSlice (p.1.1 - a.len) (p.1.2 - a.len) step b.len))
              (a.getSlice (clampSlice p.2.1 p.2.2 step a.len)) concat)
        (pySlice (a.toList ++ b.toList) s) := by
      have hlen : (a.len + b.len).toNat = (a.toList ++ b.toList).length := by
        rw [la, lb]; simp; omega
      rw [hlen]
      unfold pySlice
      cases hi : pyIndices s (a.toList ++ b.toList).length with
      | error e => rfl
      | ok t =>
        obtain ⟨start, stop, step⟩ := t
        obtain ⟨_, hne, hup, hdown⟩ := pyIndices_range hi
        rw [List.length_append] at hup hdown
        simp only
        rw [la, lb]
        split
        · rename_i hc
          have hcut : cutSlice start stop step a.toList.length = cutUp start stop step a.toList.length := by
            unfold cutSlice; rw [if_neg (by omega)]
          obtain ⟨_, h2, h3, h4⟩ := cutUp_spec start stop step a.toList.length hc
          rw [hcut, elems_append_up _ _ hc]
          have i1 := iha h.1 (clampSlice (cutUp start stop step a.toList.length).1.1
            (cutUp start stop step a.toList.length).1.2 step a.toList.length)
          rw [clampSlice_up _ hc (by omega)] at i1
          have i2 := ihb h.2 (clampSlice ((cutUp start stop step a.toList.length).2.1 - a.toList.length)
            ((cutUp start stop step a.toList.length).2.2 - a.toList.length) step b.toList.length)
          rw [clampSlice_up _ hc (by omega)] at i2
          obtain ⟨q1, e1, w1, t1⟩ := means_ok i1
          obtain ⟨q2, e2, w2, t2⟩ := means_ok i2
          refine ⟨concat q1 q2, ?_, concat_WF w1 w2, ?_⟩
          · rw [e1, e2]; rfl
          · rw [concat_toList, t1, t2]
        · rename_i hc
          have hc' : step < 0 := by omega
          have hcut : cutSlice start stop step ((a.toList.length : Int) - 1) =
              ((-(cutUp (-start) (-stop) (-step) (-((a.toList.length : Int) - 1))).1.1,
                -(cutUp (-start) (-stop) (-step) (-((a.toList.length : Int) - 1))).1.2),
               (-(cutUp (-start) (-stop) (-step) (-((a.toList.length : Int) - 1))).2.1,
                -(cutUp (-start) (-stop) (-step) (-((a.toList.length : Int) - 1))).2.2)) := by
            unfold cutSlice; rw [if_pos hc']
          obtain ⟨_, h2, h3, h4⟩ := cutUp_spec (-start) (-stop) (-step)
            (-((a.toList.length : Int) - 1)) (by omega)
          rw [elems_append_down _ _ hc']
          generalize cutUp (-start) (-stop) (-step) (-((a.toList.length : Int) - 1)) = r at *
          generalize cutSlice start stop step ((a.toList.length : Int) - 1) = p at *
          have q1 : p.1.1 = -r.1.1 := by rw [hcut]
          have q2 : p.2.1 = -r.2.1 := by rw [hcut]
          have i1 := ihb h.2 (clampSlice (p.1.1 - a.toList.length) (p.1.2 - a.toList.length) step
            b.toList.length)
          rw [clampSlice_down _ hc' (by omega)] at i1
          have i2 := iha h.1 (clampSlice p.2.1 p.2.2 step a.toList.length)
          rw [clampSlice_down _ hc' (by omega)] at i2
          obtain ⟨q1, e1, w1, t1⟩ := means_ok i1
          obtain ⟨q2, e2, w2, t2⟩ := means_ok i2
          refine ⟨concat q1 q2, ?_, concat_WF w1 w2, ?_⟩
          · rw [e1, e2]; rfl
          · rw [concat_toList, t1, t2]
    simp only [Sq.getSlice, Sq.toList]
    split
    · rename_i hstep
      rw [la, lb] at *
      split
      · rename_i hf
        rw [fast_first _ _ s hstep hf.1 hf.2]
        exact iha h.1 s
      · rename_i hnf
        split
        · rename_i hf
          rw [fast_first_neg _ _ s hstep hf.1 hf.2]
          exact iha h.1 _
        · split
          · rename_i hf
            rw [fast_second _ _ s hstep hf hnf]
            exact ihb h.2 _
          · exact general
    · exact general
  | view sq mystart mystop ih =>
    intro h s
    have hw := h
    obtain ⟨hs, h0, h1, h2⟩ := h
    have hlen : ((Sq.view sq mystart mystop).toList.length : Int) = mystop - mystart := by
      rw [← len_toList hw]; rfl
    have hit := iter_toList hw
    have hn : (mystop - mystart).toNat = (Sq.view sq mystart mystop).toList.length := by omega
    simp only [Sq.getSlice]
    rw [hn, hit]
    have slow : Means ((pySlice (Sq.view sq mystart mystop).toList s).map Sq.lst)
        (pySlice (Sq.view sq mystart mystop).toList s) := means_base _ _ fun ys => ⟨trivial, rfl⟩
    by_cases hstep : s.step.getD 1 = 1
    · have hall : s.step.all (fun c => decide (c > 0)) = true := by
        cases hs : s.step with
        | none => rfl
        | some c => rw [hs] at hstep; simp at hstep; subst hstep; rfl
      have hind : indices s (Sq.view sq mystart mystop).toList.length =
          .ok ((s.start.map (normalizeIdx · (Sq.view sq mystart mystop).toList.length)).getD 0,
            (s.stop.map (normalizeIdx · (Sq.view sq mystart mystop).toList.length)).getD
              (Sq.view sq mystart mystop).toList.length, 1) := by
        unfold indices
        cases hs : s.step with
        | none => rfl
        | some c =>
          rw [hs] at hstep; simp at hstep; subst hstep
          rfl
      rw [hind, pySlice_eq_up _ hall, hstep, ← hlen]
      simp only [if_true]
      generalize hL : (Sq.view sq mystart mystop).toList = L at *
      have hc1 : ((clampSlice ((s.start.map (normalizeIdx · (L.length : Int))).getD 0)
          ((s.stop.map (normalizeIdx · (L.length : Int))).getD L.length) 1 L.length).start).getD 0
          = (s.start.map fun (i : Int) => if i < 0 then max (i + L.length) 0 else min i L.length).getD 0 := by
        unfold clampSlice normalizeIdx
        rw [if_neg (by omega)]
        cases s.start with
        | none =>
          simp only [Option.map_none, Option.getD_none]
          split <;> (try split) <;> simp <;> omega
        | some i =>
          simp only [Option.map_some, Option.getD_some]
          split <;> split <;> (try split) <;> simp <;> omega
      have hc2 : ((clampSlice ((s.start.map (normalizeIdx · (L.length : Int))).getD 0)
          ((s.stop.map (normalizeIdx · (L.length : Int))).getD L.length) 1 L.length).stop).getD 0
          = (s.stop.map fun (i : Int) => if i < 0 then max (i + L.length) 0 else min i L.length).getD L.length := by
        unfold clampSlice normalizeIdx
        rw [if_neg (by omega)]
        cases s.stop with
        | none =>
          simp only [Option.map_none, Option.getD_none]
          split <;> (try split) <;> simp <;> omega
        | some i =>
          simp only [Option.map_some, Option.getD_some]
          split <;> split <;> (try split) <;> simp <;> omega
      rw [hc1, hc2]
      have b1 : 0 ≤ (s.start.map fun (i : Int) => if i < 0 then max (i + L.length) 0 else min i L.length).getD 0 ∧
          (s.start.map fun (i : Int) => if i < 0 then max (i + L.length) 0 else min i L.length).getD 0 ≤ L.length := by
        cases s.start with
        | none => simp
        | some i => simp only [Option.map_some, Option.getD_some]; split <;> omega
      have b2 : 0 ≤ (s.stop.map fun (i : Int) => if i < 0 then max (i + L.length) 0 else min i L.length).getD L.length ∧
          (s.stop.map fun (i : Int) => if i < 0 then max (i + L.length) 0 else min i L.length).getD L.length ≤ L.length := by
        cases s.stop with
        | none => simp
        | some i => simp only [Option.map_some, Option.getD_some]; split <;> omega
      generalize (s.start.map fun (i : Int) => if i < 0 then max (i + L.length) 0 else min i L.length).getD 0 = A at *
      generalize (s.stop.map fun (i : Int) => if i < 0 then max (i + L.length) 0 else min i L.length).getD L.length = B at *
      by_cases hAB : B ≤ A
      · rw [if_pos (by omega), elems_empty_up _ (by omega) hAB]
        exact ⟨_, rfl, ⟨trivial, by simp [Sq.toList]⟩, by simp [Sq.toList]⟩
      · rw [if_neg (by omega)]
        refine ⟨_, rfl, ⟨hs, by omega, by omega, by omega⟩, ?_⟩
        rw [elems_one _ b2.2 _ b1.1 (by omega), ← hL]
        simp only [Sq.toList]
        rw [List.take_drop, List.take_take, List.drop_drop]
        congr 2 <;> omega
    · cases hi : indices s (Sq.view sq mystart mystop).toList.length with
      | error e =>
        have : pySlice (Sq.view sq mystart mystop).toList s = .error e := by
          unfold indices at hi
          cases hs : s.step with
          | none => rw [hs] at hi; simp at hi
          | some c =>
            rw [hs] at hi
            simp only at hi
            split at hi
            · unfold pySlice; rw [hi]
            · simp at hi
        rw [this]; rfl
      | ok t =>
        obtain ⟨a, b, c⟩ := t
        have hc : c ≠ 1 := by
          unfold indices at hi
          cases hs : s.step with
          | none => rw [hs] at hstep; simp at hstep
          | some c' =>
            rw [hs] at hi hstep
            simp only at hi
            split at hi
            · have := (pyIndices_range hi).1
              rw [this, hs]; exact hstep
            · simp at hi
              rw [← hi.2.2]; exact hstep
        simp only
        rw [if_neg hc]
        exact slow

end Verif.Seq
