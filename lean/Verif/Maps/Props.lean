import Verif.Maps.Lemmas
/-
Properties of dictionaries (C23).
-/
namespace Verif.Maps

variable {K V : Type} [DecidableEq K]

/-- `ShellMutableMap` is a dict: whatever the operations, what they show is what a dict with the contents
of the wrapped mapping shows (up to the order of keys). -/
theorem shell_map_history [DecidableEq V] (inner : List (K × V)) (h : (sdKeys inner).Nodup)
    (ops : List (Op K V)) (hv : ∀ op ∈ ops, op.Valid) :
    MapRuns (sdGet inner) ops ((Shell.new inner).history ops) := by
  have : ∀ (ops : List (Op K V)) (s : Shell K V), Good s → (∀ op ∈ ops, op.Valid) →
      MapRuns s.get ops (s.history ops) := by
    intro ops
    induction ops with
    | nil => intro s _ _; exact MapRuns.nil _
    | cons op ops ih =>
      intro s hs hv
      obtain ⟨h1, h2, _⟩ := step_spec hs op (hv op (by simp))
      exact MapRuns.cons h1 (ih _ h2 fun o ho => hv o (by simp [ho]))
  have h2 := this ops (Shell.new inner) (good_new h) hv
  rw [get_new] at h2
  exact h2

/-- The wrapped mapping is never changed. -/
theorem shell_map_keeps_inner [DecidableEq V] (inner : List (K × V)) (h : (sdKeys inner).Nodup)
    (ops : List (Op K V)) (hv : ∀ op ∈ ops, op.Valid) :
    (ops.foldl (fun s op => (Shell.step s op).2) (Shell.new inner)).inner = inner := by
  have : ∀ (ops : List (Op K V)) (s : Shell K V), Good s → (∀ op ∈ ops, op.Valid) →
      (ops.foldl (fun s op => (Shell.step s op).2) s).inner = s.inner := by
    intro ops
    induction ops with
    | nil => intro s _ _; rfl
    | cons op ops ih =>
      intro s hs hv
      obtain ⟨_, h2, h3⟩ := step_spec hs op (hv op (by simp))
      rw [List.foldl_cons, ih _ h2 fun o ho => hv o (by simp [ho]), h3]
  exact this ops (Shell.new inner) (good_new h) hv

example : (Shell.new [(1, 10), (2, 20)]).history
    [.set 3 30, .del 1, .del 1, .len, .keys, .get 1, .pop 2 none, .pop 2 (some 7), .setdefault 1 11, .items,
     .eq [(1, 11), (3, 30)], .popitem, .clear, .truth, .popitem] =
    [.done, .done, .keyError, .num 2, .keys [2, 3], .keyError, .value 20, .value 7, .value 11,
     .items [(3, 30), (1, 11)], .bool true, .item 1 11, .done, .bool false, .keyError] := by decide +kernel

/-- The specification tells the observations apart: `get` and `len` of one content have one answer. -/
theorem mapStep_len_determined {m m' m'' : PyMap K V} {o o' : Obs K V} (h : MapStep m .len o m')
    (h' : MapStep m .len o' m'') : o = o' := by
  obtain ⟨_, l, h1, h2⟩ := h
  obtain ⟨_, l', g1, g2⟩ := h'
  rw [h2, g2, keysOf_length h1 g1]

/-- `copy` keeps the items, keys and equality of lookups, whatever happened before... -/
theorem copy_keeps_items (s : Shell K V) : s.copy.get = s.get ∧ s.copy.iter = s.iter := ⟨rfl, rfl⟩

/-- ... but not the length: a copy of a dict from which an item was removed still reports it, and a copy
of `{}` with one item added is "empty", so that `pop` of that item raises. -/
theorem copy_wrong_length :
    ((Shell.new [((1 : Nat), (10 : Nat))]).del 1).map (fun s => ((Shell.copy s).len, s.len, (Shell.copy s).iter)) =
      some (1, 0, []) ∧
    (((Shell.new ([] : List (Nat × Nat))).set 1 10).copy.get 1 = some 10 ∧
      ((Shell.new ([] : List (Nat × Nat))).set 1 10).copy.pop 1 none =
        (none, ((Shell.new ([] : List (Nat × Nat))).set 1 10).copy)) := by decide +kernel

/-- Without mutations the copy is right in every respect. -/
theorem copy_fresh_partial (inner : List (K × V)) : (Shell.new inner).copy = Shell.new inner := rfl

/-- `d | other`: the items are right (the length suffers from `copy`). -/
theorem or_items (s : Shell K V) (l : List (K × V)) :
    (s.or l).get = l.foldl (fun m e => PyMap.set m e.1 e.2) s.get := by
  unfold Shell.or
  have : ∀ (l : List (K × V)) (s : Shell K V),
      (s.update l).get = l.foldl (fun m e => PyMap.set m e.1 e.2) s.get := by
    intro l
    induction l with
    | nil => intro s; rfl
    | cons e l ih =>
      intro s
      have := ih (s.set e.1 e.2)
      unfold Shell.update at this ⊢
      simp only [List.foldl_cons]
      rw [this, get_set]
  rw [this]
  rfl

/-- `other | d` is computed as `d | other`: with a key on both sides the wrong value wins.  In Python
`{1: 10} | {1: 20}` is `{1: 20}`. -/
theorem ror_swapped : ((Shell.new [((1 : Nat), (20 : Nat))]).or [(1, 10)]).get 1 = some 10 ∧
    ([(1, 20)].foldl (fun m e => PyMap.set m e.1 e.2) (sdGet [((1 : Nat), (10 : Nat))])) 1 = some 20 := by
  decide +kernel

/-- Overwriting a key moves it to the end of the iteration order; in Python it keeps its place. -/
theorem overwrite_moves_key : ((Shell.new [((1 : Nat), (10 : Nat)), (2, 20)]).set 1 11).iter = [2, 1] ∧
    sdKeys (sdSet [((1 : Nat), (10 : Nat)), (2, 20)] 1 11) = [1, 2] := by decide +kernel

/-- `reversed(d)` lists an overwritten key twice. -/
theorem reversed_repeats : ((Shell.new [((1 : Nat), (10 : Nat)), (2, 20)]).set 1 11).reversed = [1, 2, 1] := by
  decide +kernel

/-- `reversed(d)` lists exactly the keys, each once, as long as no key of the wrapped mapping was
overwritten. -/
theorem reversed_partial (s : Shell K V) (h : (sdKeys s.inner).Nodup) (hm : (sdKeys s.muts).Nodup)
    (hlen : ∃ l, KeysOf s.get l ∧ s.len = l.length)
    (hno : ∀ k v, (k, some v) ∈ s.muts → k ∉ sdKeys s.inner) : KeysOf s.get s.reversed := by
  refine ⟨?_, reversed_mem ⟨h, hm, hlen⟩⟩
  unfold Shell.reversed
  simp only
  rw [List.nodup_append]
  refine ⟨?_, ?_, ?_⟩
  · rw [List.filter_reverse, List.map_reverse, List.nodup_reverse]
    exact List.Nodup.sublist (List.Sublist.map _ List.filter_sublist) hm
  · refine List.Nodup.filter _ ?_
    unfold sdKeys
    rw [List.map_reverse, List.nodup_reverse]
    exact h
  · intro a ha b hb
    rintro rfl
    rw [List.filter_reverse, List.map_reverse, List.mem_reverse, mem_live hm] at ha
    obtain ⟨v, hv⟩ := ha
    refine hno a v ((sdGet_mem hm _ _).mp hv) ?_
    have := (List.mem_filter.mp hb).1
    unfold sdKeys at this ⊢
    rw [List.map_reverse, List.mem_reverse] at this
    exact this

/-- `SimpleDict` is an ordered dict: lookups after an assignment, and the order of keys. -/
theorem simple_dict_set (d : List (K × V)) (k : K) (v : V) :
    sdGet (sdSet d k v) = PyMap.set (sdGet d) k v ∧
    sdKeys (sdSet d k v) = (if k ∈ sdKeys d then sdKeys d else sdKeys d ++ [k]) := by
  refine ⟨?_, sdKeys_set d k v⟩
  funext x
  rw [sdGet_set]
  rfl

/-- Deleting removes exactly that item, and fails exactly for missing keys. -/
theorem simple_dict_del (d : List (K × V)) (h : (sdKeys d).Nodup) (k : K) :
    (sdGet d k = none → sdDel d k = none) ∧
    (sdGet d k ≠ none → ∃ d', sdDel d k = some d' ∧ sdKeys d' = (sdKeys d).filter (fun x => decide (x ≠ k)) ∧
      sdGet d' = PyMap.erase (sdGet d) k) := by
  obtain ⟨h1, h2⟩ := sdDel_spec d h k
  refine ⟨fun hn => h1 ((sdGet_none d k).mp hn), fun hn => ?_⟩
  have hk : k ∈ sdKeys d := by
    by_contra hk
    exact hn ((sdGet_none d k).mpr hk)
  refine ⟨_, h2 hk, ?_, ?_⟩
  · unfold sdKeys
    rw [List.filter_map]
    rfl
  · funext x
    clear h1 h2 hn hk
    induction d with
    | nil => simp [sdGet, PyMap.erase]
    | cons e d ih =>
      obtain ⟨a, b⟩ := e
      simp only [sdKeys, List.map_cons, List.nodup_cons] at h
      have ih := ih h.2
      unfold PyMap.erase at ih ⊢
      by_cases ha : a = k
      · simp only [List.filter_cons, ha, ne_eq, not_true_eq_false, decide_false, Bool.false_eq_true, if_false]
        rw [ih]
        by_cases hx : x = k
        · simp [hx]
        · simp [hx, sdGet, Ne.symm hx]
      · simp only [List.filter_cons, ne_eq, ha, not_false_eq_true, decide_true, if_true, sdGet]
        rw [ih]
        by_cases hx : x = k
        · simp only [hx, if_true]; rw [if_neg ha]
        · simp only [if_neg hx]

/-- `popitem` removes the item inserted last. -/
theorem simple_dict_popitem (d : List (K × V)) :
    (d = [] → sdPopitem d = none) ∧ (∀ d' e, d = d' ++ [e] → sdPopitem d = some (e, d')) := by
  refine ⟨?_, ?_⟩
  · rintro rfl; rfl
  · rintro d' e rfl; simp [sdPopitem]

/-- `MapBase.__eq__` compares contents. -/
theorem map_eq_iff [DecidableEq V] (a b : List (K × V)) (ha : (sdKeys a).Nodup) (hb : (sdKeys b).Nodup) :
    mapEq a b = true ↔ sdGet a = sdGet b := by
  rw [mapEq_spec ha hb]
  constructor
  · intro h
    funext k
    cases hg : sdGet a k with
    | none =>
      cases hg' : sdGet b k with
      | none => rfl
      | some v =>
        have := (h k v).mpr ((sdGet_mem hb _ _).mp hg')
        rw [hg] at this
        simp at this
    | some v => exact ((sdGet_mem hb _ _).mpr ((h k v).mp hg)).symm
  · intro h k v
    rw [h, sdGet_mem hb]

example : sdKeys (sdSet (sdSet [((1 : Nat), (10 : Nat)), (2, 20)] 3 30) 1 11) = [1, 2, 3] ∧
    sdDel [((1 : Nat), (10 : Nat)), (2, 20)] 1 = some [(2, 20)] ∧
    mapEq [((1 : Nat), (10 : Nat)), (2, 20)] [(2, 20), (1, 10)] = true ∧
    mapEq [((1 : Nat), (10 : Nat)), (2, 20)] [(2, 20), (3, 10)] = false := by decide +kernel

/-- Iterating a symbolic dict to the end yields each of its keys once, and every enumeration of its keys
is such an iteration: no possibility is lost. -/
theorem symbolic_dict_iter (m : PyMap K V) (ks : List K) : Unrolled m ks ↔ KeysOf m ks := by
  induction ks generalizing m with
  | nil =>
    constructor
    · intro h
      refine ⟨List.nodup_nil, fun k => ?_⟩
      have hk := congrFun (show m = fun _ => none from h) k
      simp [hk]
    · rintro ⟨_, h⟩
      change m = fun _ => none
      funext k
      cases hk : m k with
      | none => rfl
      | some v => exact absurd ((h k).mpr ⟨v, hk⟩) (by simp)
  | cons k ks ih =>
    constructor
    · rintro ⟨v, rem, rfl, hr, hu⟩
      obtain ⟨h1, h2⟩ := (ih rem).mp hu
      refine ⟨List.nodup_cons.mpr ⟨?_, h1⟩, ?_⟩
      · intro hm
        obtain ⟨w, hw⟩ := (h2 k).mp hm
        rw [hr] at hw
        simp at hw
      · intro x
        unfold PyMap.set
        by_cases hx : x = k
        · simp [hx]
        · simp [hx, h2]
    · rintro ⟨h1, h2⟩
      obtain ⟨v, hv⟩ := (h2 k).mp (by simp)
      refine ⟨v, PyMap.erase m k, ?_, by simp [PyMap.erase], (ih _).mpr ⟨(List.nodup_cons.mp h1).2, ?_⟩⟩
      · funext x
        unfold PyMap.set PyMap.erase
        by_cases hx : x = k
        · rw [if_pos hx, hx, hv]
        · rw [if_neg hx, if_neg hx]
      · intro x
        unfold PyMap.erase
        by_cases hx : x = k
        · simp only [hx, if_true]
          exact ⟨fun hm => absurd hm (List.nodup_cons.mp h1).1, fun ⟨_, e⟩ => by simp at e⟩
        · rw [if_neg hx, ← h2]
          simp [hx]

example : Unrolled (sdGet [((1 : Nat), (10 : Nat)), (2, 20)]) [2, 1] :=
  (symbolic_dict_iter _ _).mpr ⟨by decide, by
    intro k
    simp only [sdGet]
    by_cases h1 : 1 = k
    · simp [← h1]
    · by_cases h2 : 2 = k
      · simp [← h2]
      · simp [h1, h2, Ne.symm h1, Ne.symm h2]⟩

end Verif.Maps
