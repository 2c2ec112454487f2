import Verif.Seq.Refine
/-
The operations of the mutable shell mean the operations of Python's list.
-/
namespace Verif.Seq

variable {α : Type}

theorem elems_take (xs : List α) {k : Int} (h : 0 ≤ k) :
    elems xs 0 (min k xs.length) 1 = xs.take k.toNat := by
  rw [elems_one xs (by omega) 0 (Int.le_refl _) (by omega)]
  simp only [Int.toNat_zero, List.drop_zero]
  by_cases hk : k ≤ xs.length
  · rw [show min k (xs.length : Int) = k by omega]
  · rw [List.take_of_length_le (by omega), List.take_of_length_le (by omega)]

theorem pySlice_take (xs : List α) {k : Int} (h : 0 ≤ k) :
    pySlice xs ⟨none, some k, none⟩ = .ok (xs.take k.toNat) := by
  rw [pySlice_eq_up _ rfl]
  simp only [Option.map_none, Option.map_some, Option.getD_none, Option.getD_some]
  rw [if_neg (by omega), elems_take xs h]

theorem pySlice_drop (xs : List α) {k : Int} (h : 0 ≤ k) :
    pySlice xs ⟨some k, none, none⟩ = .ok (xs.drop k.toNat) := by
  rw [pySlice_eq_up _ rfl]
  simp only [Option.map_none, Option.map_some, Option.getD_none, Option.getD_some]
  rw [if_neg (by omega), elems_one xs (Int.le_refl _) _ (by omega) (by omega)]
  congr 1
  simp only [Int.toNat_natCast, List.take_length]
  by_cases hk : k ≤ xs.length
  · rw [show min k (xs.length : Int) = k by omega]
  · rw [List.drop_of_length_le (by omega), List.drop_of_length_le (by omega)]

theorem splice_means {inner new : Sq α} (hi : inner.WF) (hn : new.WF) (start stop : Int) :
    Means (splice inner start stop new)
      (.ok (inner.toList.take start.toNat ++ new.toList ++ inner.toList.drop (max start stop).toNat)) := by
  unfold splice
  have hl := len_toList hi
  have hfront : ∃ f, spliceFront inner start new = .ok f ∧ f.WF ∧
      f.toList = inner.toList.take start.toNat ++ new.toList := by
    unfold spliceFront
    by_cases hs : start > 0
    · rw [if_pos hs]
      have := getSlice_means hi ⟨none, some start, none⟩
      rw [pySlice_take _ (by omega)] at this
      obtain ⟨q, e, w, t⟩ := means_ok this
      rw [e]
      exact ⟨_, rfl, concat_WF w hn, by rw [concat_toList, t]⟩
    · rw [if_neg hs]
      exact ⟨_, rfl, hn, by rw [show start.toNat = 0 by omega]; simp⟩
  obtain ⟨f, ef, wf, tf⟩ := hfront
  simp only [ef]
  have hstop : (if start > 0 then (if stop < start then start else stop)
      else if (if stop < start then start else stop) ≤ 0 then 0
        else (if stop < start then start else stop)) = ((max start stop).toNat : Int) := by
    repeat' split
    all_goals omega
  rw [hstop, hl]
  by_cases hlt : ((max start stop).toNat : Int) < inner.toList.length
  · rw [if_pos hlt]
    have := getSlice_means hi ⟨some ((max start stop).toNat : Int), none, none⟩
    rw [pySlice_drop _ (by omega)] at this
    obtain ⟨q, e, w, t⟩ := means_ok this
    rw [e]
    exact ⟨_, rfl, concat_WF wf w, by rw [concat_toList, tf, t, Int.toNat_natCast]⟩
  · rw [if_neg hlt]
    refine ⟨_, rfl, wf, ?_⟩
    rw [tf, List.drop_of_length_le (by omega), List.append_nil]

theorem setIdx_means {inner : Sq α} (hi : inner.WF) (k : Int) (v : α) :
    Means (setIdx inner k v) (pySet inner.toList k v) := by
  unfold setIdx pySet
  rw [checkIdx_spec, len_toList hi]
  change Means _ (if 0 ≤ normalizeIdx k inner.toList.length ∧
    normalizeIdx k inner.toList.length < inner.toList.length then _ else _)
  generalize hj : normalizeIdx k inner.toList.length = j
  by_cases hc : 0 ≤ j ∧ j < inner.toList.length
  · rw [if_pos hc, if_pos hc]
    have := splice_means hi (new := .lst [v]) trivial j (j + 1)
    have e : inner.toList.set (if k < 0 then k + inner.toList.length else k).toNat v =
        inner.toList.take j.toNat ++ (Sq.lst [v]).toList ++ inner.toList.drop (max j (j + 1)).toNat := by
      change inner.toList.set (normalizeIdx k inner.toList.length).toNat v = _
      rw [hj, List.set_eq_take_append_cons_drop, if_pos (by omega)]
      simp only [Sq.toList, List.append_assoc, List.singleton_append]
      congr 3
      omega
    simp only
    rw [e]
    exact this
  · rw [if_neg hc, if_neg hc]
    rfl

theorem take_clamp (xs : List α) (i : Int) :
    xs.take (if i < 0 then max (i + xs.length) 0 else min i xs.length).toNat =
      xs.take (normalizeIdx i xs.length).toNat := by
  unfold normalizeIdx
  split
  · congr 1; omega
  · by_cases hk : i ≤ xs.length
    · congr 1; omega
    · rw [List.take_of_length_le (by omega), List.take_of_length_le (by omega)]

theorem drop_clamp (xs : List α) {i j : Int} (h : i = j ∨ (i ≤ 0 ∧ j ≤ 0) ∨
    ((xs.length : Int) ≤ i ∧ (xs.length : Int) ≤ j)) : xs.drop i.toNat = xs.drop j.toNat := by
  rcases h with h | h | h
  · rw [h]
  · congr 1; omega
  · rw [List.drop_of_length_le (by omega), List.drop_of_length_le (by omega)]

/-- The stretch that a slice with step one stands for. -/
theorem indices_one {s : Slice} {n : Nat} {a b : Int} (h : indices s n = .ok (a, b, 1)) :
    s.step.getD 1 = 1 ∧ a = (s.start.map (normalizeIdx · n)).getD 0 ∧
      b = (s.stop.map (normalizeIdx · n)).getD n := by
  unfold indices at h
  cases hs : s.step with
  | none => rw [hs] at h; simp at h; exact ⟨rfl, h.1.symm, h.2.symm⟩
  | some c =>
    rw [hs] at h
    simp only at h
    split at h
    · have := pyIndices_range h
      rw [hs] at this
      simp at this
      omega
    · simp at h
      exact ⟨h.2.2, h.1.symm, h.2.1.symm⟩

theorem setSlice_means {inner new : Sq α} (hi : inner.WF) (hn : new.WF) (s : Slice) :
    Means (setSlice inner s new) (pySetSlice inner.toList s new.toList) := by
  unfold setSlice
  have hl : inner.len.toNat = inner.toList.length := by rw [len_toList hi]; omega
  rw [hl]
  cases hx : indices s inner.toList.length with
  | error e =>
    have : pySetSlice inner.toList s new.toList = .error e := by
      unfold indices at hx
      cases hs : s.step with
      | none => rw [hs] at hx; simp at hx
      | some c =>
        rw [hs] at hx
        simp only at hx
        split at hx
        · unfold pySetSlice; rw [hx]
        · simp at hx
    rw [this]; rfl
  | ok t =>
    obtain ⟨a, b, c⟩ := t
    simp only
    by_cases hc : c = 1
    · subst hc
      rw [if_neg (by simp)]
      obtain ⟨h1, h2, h3⟩ := indices_one hx
      have hall : s.step.all (fun c => decide (c > 0)) = true := by
        cases hs : s.step with
        | none => rfl
        | some c => rw [hs] at h1; simp at h1; subst h1; rfl
      have := splice_means hi hn a b
      unfold pySetSlice
      rw [pyIndices_up _ hall, h1]
      simp only [if_true]
      have e : ∀ A B : Int, (inner.toList.take A.toNat = inner.toList.take a.toNat) →
          (inner.toList.drop (max A B).toNat = inner.toList.drop (max a b).toNat) →
          Means (splice inner a b new) (.ok (inner.toList.take A.toNat ++ new.toList ++
            inner.toList.drop (max A B).toNat)) := by
        intro A B hA hB; rw [hA, hB]; exact this
      apply e
      · rw [h2]
        cases s.start with
        | none => rfl
        | some i => exact take_clamp _ i
      · apply drop_clamp
        rw [h2, h3]
        have pa : ∀ i : Int, (if i < 0 then max (i + (inner.toList.length : Int)) 0
            else min i inner.toList.length) = normalizeIdx i inner.toList.length ∨
            ((if i < 0 then max (i + (inner.toList.length : Int)) 0
            else min i inner.toList.length) = 0 ∧ normalizeIdx i inner.toList.length < 0) ∨
            ((if i < 0 then max (i + (inner.toList.length : Int)) 0
            else min i inner.toList.length) = inner.toList.length ∧
              (inner.toList.length : Int) < normalizeIdx i inner.toList.length) := by
          intro i; unfold normalizeIdx; split <;> omega
        cases s.start with
        | none =>
          cases s.stop with
          | none => left; rfl
          | some j =>
            have := pa j
            simp only [Option.map_none, Option.map_some, Option.getD_none, Option.getD_some]
            omega
        | some i =>
          cases s.stop with
          | none =>
            have := pa i
            simp only [Option.map_none, Option.map_some, Option.getD_none, Option.getD_some]
            omega
          | some j =>
            have p1 := pa i
            have p2 := pa j
            simp only [Option.map_some, Option.getD_some]
            omega
    · rw [if_pos hc, iter_toList hi, iter_toList hn]
      exact means_base _ _ fun ys => ⟨trivial, rfl⟩

theorem delIdx_means {inner : Sq α} (hi : inner.WF) (k : Int) :
    Means (delIdx inner k) (pyDel inner.toList k) := by
  unfold delIdx pyDel
  rw [checkIdx_spec, len_toList hi]
  change Means _ (if 0 ≤ normalizeIdx k inner.toList.length ∧
    normalizeIdx k inner.toList.length < inner.toList.length then
      .ok (inner.toList.eraseIdx (normalizeIdx k inner.toList.length).toNat) else _)
  generalize hj : normalizeIdx k inner.toList.length = j
  by_cases hc : 0 ≤ j ∧ j < inner.toList.length
  · rw [if_pos hc, if_pos hc]
    have := setSlice_means hi (new := .lst []) trivial ⟨some j, some (j + 1), some 1⟩
    have e : pySetSlice inner.toList ⟨some j, some (j + 1), some 1⟩ (Sq.lst []).toList =
        .ok (inner.toList.eraseIdx j.toNat) := by
      unfold pySetSlice
      rw [pyIndices_up _ rfl]
      simp only [Option.map_some, Option.getD_some, if_true]
      rw [if_neg (by omega), if_neg (by omega), List.eraseIdx_eq_take_drop_succ]
      simp only [Sq.toList, List.append_nil]
      congr 3 <;> omega
    rw [e] at this
    exact this
  · rw [if_neg hc, if_neg hc]
    rfl

theorem filter_stretch (a b : Nat) (hab : a ≤ b) : ∀ (xs : List α) (k : Nat),
    ((xs.zipIdx k).filter fun p => !(decide (a ≤ p.2) && decide (p.2 < b))).map (·.1) =
      xs.take (a - k) ++ xs.drop (b - k) := by
  intro xs
  induction xs with
  | nil => intro k; simp
  | cons x xs ih =>
    intro k
    rw [List.zipIdx_cons, List.filter_cons]
    simp only
    by_cases h1 : a ≤ k
    · by_cases h2 : k < b
      · rw [if_neg (by simp [h1, h2]), ih, show a - k = 0 by omega, show a - (k + 1) = 0 by omega,
          show b - k = (b - (k + 1)) + 1 by omega]
        simp
      · rw [if_pos (by simp [h1]; omega), List.map_cons, ih, show a - k = 0 by omega,
          show a - (k + 1) = 0 by omega, show b - k = 0 by omega, show b - (k + 1) = 0 by omega]
        simp
    · rw [if_pos (by simp; omega), List.map_cons, ih,
        show a - k = (a - (k + 1)) + 1 by omega, show b - k = (b - (k + 1)) + 1 by omega]
      simp

theorem delSlice_means {inner : Sq α} (hi : inner.WF) (s : Slice) :
    Means (delSlice inner s) (pyDelSlice inner.toList s) := by
  unfold delSlice
  by_cases hs : s.step = none ∨ s.step = some 1
  · rw [if_pos hs]
    have hall : s.step.all (fun c => decide (c > 0)) = true := by
      rcases hs with h | h <;> rw [h] <;> rfl
    have h1 : s.step.getD 1 = 1 := by rcases hs with h | h <;> rw [h] <;> rfl
    have := setSlice_means hi (new := .lst []) trivial s
    have e : pySetSlice inner.toList s (Sq.lst []).toList = pyDelSlice inner.toList s := by
      unfold pySetSlice pyDelSlice
      cases hp : pyIndices s inner.toList.length with
      | error e => rfl
      | ok t =>
        obtain ⟨a, b, c⟩ := t
        obtain ⟨e1, _, hr, _⟩ := pyIndices_range hp
        rw [h1] at e1
        subst e1
        have hr := hr (by omega)
        simp only [if_true]
        congr 1
        have := filter_stretch a.toNat (max a b).toNat (by omega) inner.toList 0
        simp only [Nat.sub_zero] at this
        simp only [Sq.toList, List.append_nil]
        rw [← this]
        congr 2
        funext p
        congr 1
        rw [Bool.eq_iff_iff]
        simp only [Bool.and_eq_true, decide_eq_true_eq, List.contains_iff_mem]
        have hm := Range.mem_iter ⟨a, b, 1⟩ (by simp) (p.2 : Int)
        unfold Range.HasPos at hm
        simp only [Int.one_mul, if_pos (show (0 : Int) < 1 by omega)] at hm
        rw [hm]
        constructor
        · intro hh
          refine ⟨p.2 - a.toNat, ?_, ?_⟩ <;> omega
        · rintro ⟨i, h1, h2⟩
          omega
    rw [e] at this
    exact this
  · rw [if_neg hs, iter_toList hi]
    exact means_base _ _ fun ys => ⟨trivial, rfl⟩

theorem insert_means {inner : Sq α} (hi : inner.WF) (i : Int) (v : α) :
    Means (insert inner i v) (.ok (pyInsert inner.toList i v)) := by
  have := setSlice_means hi (new := .lst [v]) trivial ⟨some i, some i, some 1⟩
  have e : pySetSlice inner.toList ⟨some i, some i, some 1⟩ (Sq.lst [v]).toList =
      .ok (pyInsert inner.toList i v) := by
    unfold pySetSlice
    rw [pyIndices_up _ rfl]
    simp only [Option.map_some, Option.getD_some, if_true, Int.max_self]
    rfl
  rw [e] at this
  exact this

theorem append_means {inner : Sq α} (hi : inner.WF) (v : α) :
    (append inner v).WF ∧ (append inner v).toList = inner.toList ++ [v] :=
  ⟨concat_WF hi trivial, concat_toList _ _⟩

theorem extend_means {inner v : Sq α} (hi : inner.WF) (hv : v.WF) :
    (extend inner v).WF ∧ (extend inner v).toList = inner.toList ++ v.toList :=
  ⟨concat_WF hi hv, concat_toList _ _⟩

theorem filterMap_range_aux (xs : List α) : ∀ n : Nat, n ≤ xs.length →
    (List.range n).filterMap (fun (i : Nat) => lookup xs (i : Int)) = xs.take n := by
  intro n
  induction n with
  | zero => intro _; simp
  | succ n ih =>
    intro h
    rw [List.range_succ, List.filterMap_append, ih (by omega), List.take_add_one]
    congr 1

theorem filterMap_range (xs : List α) :
    ((List.range xs.length).map (fun (i : Nat) => (i : Int))).filterMap (lookup xs) = xs := by
  rw [List.filterMap_map]
  have := filterMap_range_aux xs xs.length (Nat.le_refl _)
  rw [List.take_length] at this
  exact this

theorem reverse_means {inner : Sq α} (hi : inner.WF) :
    Means (reverse inner) (.ok inner.toList.reverse) := by
  unfold reverse
  have hl : inner.len.toNat = inner.toList.length := by rw [len_toList hi]; omega
  rw [mapE_spec (g := lookup inner.toList)]
  · refine ⟨_, rfl, trivial, ?_⟩
    rw [hl, List.map_reverse, List.filterMap_reverse, filterMap_range]
    rfl
  · intro i h
    simp only [List.mem_map, List.mem_reverse, List.mem_range] at h
    obtain ⟨n, h1, h2⟩ := h
    obtain ⟨v, hv⟩ := lookup_some inner.toList (show 0 ≤ i by omega) (by omega)
    exact ⟨v, by rw [get_toList hi, pyGet_nonneg _ (by omega), hv], hv⟩

/-- What `pop` does to a list. -/
theorem pop_means {inner : Sq α} (hi : inner.WF) (k : Int) :
    match pyGet inner.toList k, pyDel inner.toList k with
    | .ok v, .ok ys => ∃ q, pop inner k = .ok (v, q) ∧ q.WF ∧ q.toList = ys
    | .error e, _ => pop inner k = .error e
    | .ok _, .error e => pop inner k = .error e := by
  unfold pop
  rw [get_toList hi]
  have := delIdx_means hi k
  cases pyGet inner.toList k with
  | error e => rfl
  | ok v =>
    simp only
    cases hd : pyDel inner.toList k with
    | error e => rw [hd] at this; simp only; rw [show delIdx inner k = .error e from this]
    | ok ys =>
      rw [hd] at this
      obtain ⟨q, e, w, t⟩ := means_ok this
      simp only
      rw [e]
      exact ⟨q, rfl, w, t⟩

theorem indexLoop_spec [DecidableEq α] {inner : Sq α} (hi : inner.WF) (v : α) :
    ∀ (fuel i : Nat), fuel + i = inner.toList.length →
    indexLoop inner v fuel i = (if v ∈ inner.toList.drop i then
      .ok (i + (inner.toList.drop i).findIdx (· = v)) else .error .valueError) := by
  intro fuel
  induction fuel with
  | zero =>
    intro i h
    rw [List.drop_of_length_le (by omega)]
    rfl
  | succ fuel ih =>
    intro i h
    have hlt : i < inner.toList.length := by omega
    have hv : lookup inner.toList (i : Int) = some inner.toList[i] := by simp [lookup, hlt]
    rw [indexLoop, get_toList hi, pyGet_nonneg _ (by omega), hv, List.drop_eq_getElem_cons hlt,
      List.findIdx_cons]
    simp only
    by_cases he : inner.toList[i] = v
    · rw [if_pos he, if_pos (by simp [he])]
      simp [he]
    · rw [if_neg he, ih (i + 1) (by omega)]
      have : v ∈ inner.toList[i] :: inner.toList.drop (i + 1) ↔ v ∈ inner.toList.drop (i + 1) := by
        simp only [List.mem_cons]
        exact ⟨fun h => h.resolve_left (fun h' => he h'.symm), Or.inr⟩
      simp only [this, he, decide_false, cond_false]
      split <;> first | rfl | (congr 1; omega)

theorem index_means [DecidableEq α] {inner : Sq α} (hi : inner.WF) (v : α) :
    index inner v = pyIndex inner.toList v := by
  unfold index pyIndex
  have hl : inner.len.toNat = inner.toList.length := by rw [len_toList hi]; omega
  rw [hl, indexLoop_spec hi v _ 0 (by omega)]
  simp

/-- `xs.remove(v)` of Python: delete the first occurrence. -/
theorem remove_means [DecidableEq α] {inner : Sq α} (hi : inner.WF) (v : α) :
    Means (remove inner v)
      (if v ∈ inner.toList then .ok (inner.toList.erase v) else .error .valueError) := by
  unfold remove
  rw [index_means hi]
  unfold pyIndex
  by_cases hm : v ∈ inner.toList
  · rw [if_pos hm, if_pos hm]
    simp only
    have := delIdx_means hi ((inner.toList.findIdx (· = v) : Nat) : Int)
    unfold pyDel at this
    have hlt : inner.toList.findIdx (· = v) < inner.toList.length :=
      List.findIdx_lt_length_of_exists ⟨v, hm, by simp⟩
    simp only at this
    rw [if_neg (show ¬ ((inner.toList.findIdx (· = v) : Nat) : Int) < 0 by omega),
      if_pos (by omega), Int.toNat_natCast] at this
    rw [List.erase_eq_eraseIdx_of_idxOf rfl]
    have hidx : inner.toList.idxOf v = inner.toList.findIdx (· = v) := by
      unfold List.idxOf
      congr 1
    rw [hidx]
    exact this
  · rw [if_neg hm, if_neg hm]
    rfl

theorem pop_last {inner : Sq α} (hi : inner.WF) :
    (inner.toList = [] → pop inner (-1) = .error .indexError) ∧
    (inner.toList ≠ [] → ∃ v q, pop inner (-1) = .ok (v, q) ∧ q.WF ∧ q.toList = inner.toList.dropLast) := by
  have := pop_means hi (-1)
  constructor
  · intro h
    rw [h] at this
    exact this
  · intro h
    have hpos : 0 < inner.toList.length := List.length_pos_iff.mpr h
    have hd : pyDel inner.toList (-1) = .ok inner.toList.dropLast := by
      unfold pyDel
      simp only
      rw [if_pos (by omega), if_pos (by omega), List.eraseIdx_eq_take_drop_succ,
        List.drop_of_length_le (by omega), List.append_nil, List.dropLast_eq_take]
      congr 2
      omega
    have hg : ∃ v, pyGet inner.toList (-1) = .ok v := by
      unfold pyGet
      rw [if_pos (by omega)]
      obtain ⟨v, hv⟩ := lookup_some inner.toList (show 0 ≤ -1 + (inner.toList.length : Int) by omega) (by omega)
      exact ⟨v, by rw [hv]⟩
    obtain ⟨v, hv⟩ := hg
    rw [hd, hv] at this
    obtain ⟨q, h1, h2, h3⟩ := this
    exact ⟨v, q, h1, h2, h3⟩

theorem clear_means : ∀ (fuel : Nat) {inner : Sq α}, inner.WF → inner.toList.length < fuel →
    ∃ q, clear fuel inner = .ok q ∧ q.WF ∧ q.toList = [] := by
  intro fuel
  induction fuel with
  | zero => intro inner _ h; omega
  | succ fuel ih =>
    intro inner hi h
    obtain ⟨h1, h2⟩ := pop_last hi
    by_cases he : inner.toList = []
    · exact ⟨inner, by rw [clear, h1 he], hi, he⟩
    · obtain ⟨v, q, e, w, t⟩ := h2 he
      rw [clear, e]
      have hpos : 0 < inner.toList.length := List.length_pos_iff.mpr he
      exact ih w (by rw [t, List.length_dropLast]; omega)

theorem zipEq_spec [DecidableEq α] : ∀ (xs ys : List α), xs.length = ys.length →
    zipEq xs ys = decide (xs = ys) := by
  intro xs
  induction xs with
  | nil => intro ys h; cases ys <;> simp_all [zipEq]
  | cons x xs ih =>
    intro ys h
    cases ys with
    | nil => simp at h
    | cons y ys =>
      simp only [List.length_cons, Nat.add_right_cancel_iff] at h
      rw [zipEq, ih ys h]
      by_cases hxy : x = y <;> simp [hxy]

theorem eq_means [DecidableEq α] : ∀ {q : Sq α}, q.WF → ∀ ys,
    q.eq ys = .ok (decide (q.toList = ys)) := by
  intro q
  induction q with
  | lst xs => intro _ ys; rfl
  | tup xs => intro _ ys; rfl
  | cat a b iha ihb =>
    intro h ys
    have la := len_toList h.1
    have lb := len_toList h.2
    have hd : (decide ((Sq.cat a b).toList = ys)) = decide (a.toList ++ b.toList = ys) := rfl
    simp only [Sq.eq]
    rw [la, lb, hd]
    by_cases hl : (a.toList.length : Int) + b.toList.length = ys.length
    · rw [if_neg (by omega), pySlice_take _ (by omega), pySlice_drop _ (by omega)]
      simp only [Int.toNat_natCast]
      rw [iha h.1, ihb h.2]
      have hsplit : a.toList ++ b.toList = ys ↔
          a.toList = ys.take a.toList.length ∧ b.toList = ys.drop a.toList.length := by
        constructor
        · intro e; rw [← e]; simp
        · rintro ⟨e1, e2⟩
          conv_rhs => rw [← List.take_append_drop a.toList.length ys]
          rw [← e1, ← e2]
      by_cases h1 : a.toList = ys.take a.toList.length
      · rw [decide_eq_true h1]
        simp only
        congr 1
        rw [decide_eq_decide, hsplit]
        exact ⟨fun h2 => ⟨h1, h2⟩, fun h2 => h2.2⟩
      · rw [decide_eq_false h1]
        simp only
        congr 1
        rw [eq_comm, decide_eq_false_iff_not, hsplit]
        exact fun h2 => h1 h2.1
    · rw [if_pos hl]
      congr 1
      rw [eq_comm, decide_eq_false_iff_not]
      intro e
      rw [← e, List.length_append] at hl
      omega
  | view s start stop ih =>
    intro h ys
    have hl : stop - start = ((Sq.view s start stop).toList.length : Int) := len_toList h
    simp only [Sq.eq]
    rw [hl, iter_toList h]
    by_cases he : ((Sq.view s start stop).toList.length : Int) = ys.length
    · rw [if_neg (by omega)]
      simp only
      rw [zipEq_spec _ _ (by omega)]
    · rw [if_pos he]
      congr 1
      rw [eq_comm, decide_eq_false_iff_not]
      intro e
      rw [e] at he
      exact he rfl

theorem contains_means [DecidableEq α] : ∀ {q : Sq α}, q.WF → ∀ v,
    q.contains v = .ok (decide (v ∈ q.toList)) := by
  intro q
  induction q with
  | lst xs => intro _ ys; rfl
  | tup xs => intro _ ys; rfl
  | cat a b iha ihb =>
    intro h v
    simp only [Sq.contains, Sq.toList, iha h.1, ihb h.2]
    by_cases h1 : v ∈ a.toList <;> simp [h1]
  | view s start stop ih =>
    intro h v
    simp only [Sq.contains]
    rw [iter_toList h]

/-- A list repeated. -/
def repeatList (xs : List α) (n : Nat) : List α := (List.replicate n xs).flatten

theorem mulLoop_means {q : Sq α} (h : q.WF) : ∀ (n : Nat) {ret : Sq α}, ret.WF →
    (mulLoop q n ret).WF ∧ (mulLoop q n ret).toList = repeatList q.toList n ++ ret.toList := by
  intro n
  induction n with
  | zero => intro ret hr; exact ⟨hr, by simp [mulLoop, repeatList]⟩
  | succ n ih =>
    intro ret hr
    obtain ⟨h1, h2⟩ := ih (concat_WF h hr)
    refine ⟨h1, ?_⟩
    rw [mulLoop, h2, concat_toList, repeatList, repeatList, List.replicate_succ']
    simp

theorem mul_means {q : Sq α} (h : q.WF) (n : Int) :
    Means (q.mul n) (.ok (repeatList q.toList n.toNat)) := by
  unfold Sq.mul
  by_cases hn : n ≤ 0
  · rw [if_pos hn]
    have := getSlice_means h ⟨some 0, some 0, none⟩
    rw [pySlice_eq_up _ rfl] at this
    rw [show n.toNat = 0 by omega]
    simp only [Option.map_some, Option.getD_some, Int.lt_irrefl, if_false] at this
    rw [elems_empty_up _ (by simp) (by omega)] at this
    exact this
  · rw [if_neg hn]
    obtain ⟨h1, h2⟩ := mulLoop_means h (n.toNat - 1) h
    refine ⟨_, rfl, h1, ?_⟩
    rw [h2]
    conv_rhs => rw [show n.toNat = (n.toNat - 1) + 1 by omega]
    rw [repeatList, repeatList, List.replicate_succ']
    simp

theorem sliceView_means {q : Sq α} (h : q.WF) (start stop : Int) :
    (sliceView q start stop).WF ∧
      (sliceView q start stop).toList = (q.toList.take stop.toNat).drop start.toNat := by
  unfold sliceView
  have hl := len_toList h
  rw [hl]
  simp only
  by_cases hw : start ≤ 0 ∧ stop ≥ q.toList.length
  · rw [if_pos hw]
    refine ⟨h, ?_⟩
    rw [List.take_of_length_le (by omega), show start.toNat = 0 by omega, List.drop_zero]
  · rw [if_neg hw]
    by_cases hs : start ≤ 0
    · simp only [if_pos hs, if_neg (show ¬ stop ≥ (q.toList.length : Int) by omega)]
      refine ⟨⟨h, by omega, by split <;> omega, by split <;> omega⟩, ?_⟩
      simp only [Sq.toList]
      rw [show start.toNat = (0 : Int).toNat by omega]
      congr 2
      split <;> omega
    · rw [if_neg hs]
      by_cases ht : stop ≥ q.toList.length
      · rw [if_pos ht]
        refine ⟨⟨h, by omega, by split <;> omega, by split <;> omega⟩, ?_⟩
        simp only [Sq.toList]
        rw [List.take_of_length_le (l := q.toList) (i := stop.toNat) (by omega),
          List.take_of_length_le (by split <;> omega)]
      · rw [if_neg ht]
        refine ⟨⟨h, by omega, by split <;> omega, by split <;> omega⟩, ?_⟩
        simp only [Sq.toList]
        split
        · rw [List.drop_of_length_le (by rw [List.length_take]; omega),
            List.drop_of_length_le (by rw [List.length_take]; omega)]
        · rfl

end Verif.Seq
