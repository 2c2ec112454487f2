import Verif.Maps.Model
import Mathlib.Data.List.Perm.Subperm
import Mathlib.Data.List.Nodup
/-
Lemmas about the dictionary models.
-/
namespace Verif.Maps

variable {K V : Type} [DecidableEq K]

theorem sdGet_set (d : List (K × V)) (k : K) (v : V) (x : K) :
    sdGet (sdSet d k v) x = if x = k then some v else sdGet d x := by
  induction d with
  | nil => simp only [sdSet, sdGet]; by_cases h : k = x <;> simp [h, eq_comm]
  | cons e d ih =>
    obtain ⟨a, b⟩ := e
    simp only [sdSet]
    by_cases h : a = k
    · rw [if_pos h]
      simp only [sdGet]
      by_cases hx : a = x
      · rw [if_pos hx, if_pos (by rw [← hx, h])]
      · rw [if_neg hx, if_neg (by rw [← h]; exact fun e => hx e.symm), if_neg hx]
    · rw [if_neg h]
      simp only [sdGet]
      by_cases hx : a = x
      · rw [if_pos hx, if_neg (by rw [← hx]; exact h), if_pos hx]
      · rw [if_neg hx, ih, if_neg hx]

theorem sdKeys_set (d : List (K × V)) (k : K) (v : V) :
    sdKeys (sdSet d k v) = if k ∈ sdKeys d then sdKeys d else sdKeys d ++ [k] := by
  induction d with
  | nil => rfl
  | cons e d ih =>
    obtain ⟨a, b⟩ := e
    simp only [sdSet]
    by_cases h : a = k
    · rw [if_pos h]
      simp [sdKeys, h]
    · rw [if_neg h]
      simp only [sdKeys, List.map_cons, List.mem_cons] at ih ⊢
      rw [ih]
      by_cases hm : k ∈ List.map (fun x => x.1) d
      · simp [hm]
      · simp [hm, Ne.symm h]

theorem nodup_set {d : List (K × V)} (h : (sdKeys d).Nodup) (k : K) (v : V) : (sdKeys (sdSet d k v)).Nodup := by
  rw [sdKeys_set]
  split
  · exact h
  · rename_i hk
    rw [List.nodup_append]
    refine ⟨h, by simp, ?_⟩
    intro a ha b hb
    simp at hb
    rw [hb]
    exact fun e => hk (e ▸ ha)

theorem sdGet_mem {d : List (K × V)} (h : (sdKeys d).Nodup) (k : K) (v : V) :
    sdGet d k = some v ↔ (k, v) ∈ d := by
  induction d with
  | nil => simp [sdGet]
  | cons e d ih =>
    obtain ⟨a, b⟩ := e
    simp only [sdKeys, List.map_cons, List.nodup_cons] at h
    simp only [sdGet, List.mem_cons, Prod.mk.injEq]
    by_cases hk : a = k
    · rw [if_pos hk]
      constructor
      · intro e; simp at e; exact Or.inl ⟨hk.symm, e.symm⟩
      · rintro (⟨_, e⟩ | hm)
        · rw [e]
        · exact absurd (List.mem_map_of_mem (f := (·.1)) hm) (by simpa [← hk] using h.1)
    · rw [if_neg hk, ih h.2]
      constructor
      · exact Or.inr
      · rintro (⟨e, _⟩ | hm)
        · exact absurd e.symm hk
        · exact hm

theorem sdGet_none (d : List (K × V)) (k : K) : sdGet d k = none ↔ k ∉ sdKeys d := by
  induction d with
  | nil => simp [sdGet, sdKeys]
  | cons e d ih =>
    obtain ⟨a, b⟩ := e
    simp only [sdGet, sdKeys, List.map_cons, List.mem_cons, not_or] at ih ⊢
    by_cases hk : a = k
    · simp [hk]
    · rw [if_neg hk, ih]
      exact ⟨fun h => ⟨fun e => hk e.symm, h⟩, fun h => h.2⟩

theorem sdGet_some_mem (d : List (K × V)) (k : K) : k ∈ sdKeys d ↔ ∃ v, sdGet d k = some v := by
  rw [← Option.ne_none_iff_exists', ne_eq, sdGet_none, not_not]

theorem sdDel_spec (d : List (K × V)) (h : (sdKeys d).Nodup) (k : K) :
    (k ∉ sdKeys d → sdDel d k = none) ∧
    (k ∈ sdKeys d → sdDel d k = some (d.filter fun e => decide (e.1 ≠ k))) := by
  induction d with
  | nil => simp [sdKeys, sdDel]
  | cons e d ih =>
    obtain ⟨a, b⟩ := e
    simp only [sdKeys, List.map_cons, List.nodup_cons] at h ih
    obtain ⟨ih1, ih2⟩ := ih h.2
    simp only [sdDel, sdKeys, List.map_cons, List.mem_cons, not_or]
    by_cases hk : a = k
    · rw [if_pos hk]
      refine ⟨fun hn => absurd hk.symm hn.1, fun _ => ?_⟩
      simp only [List.filter_cons, hk, ne_eq, not_true_eq_false, decide_false, Bool.false_eq_true, if_false]
      congr 1
      symm
      rw [List.filter_eq_self]
      intro e he
      have := List.mem_map_of_mem (f := (·.1)) he
      have hne : e.1 ≠ k := fun e' => h.1 (by rw [hk, ← e']; exact this)
      simpa using hne
    · rw [if_neg hk]
      constructor
      · intro hn; rw [ih1 hn.2]; rfl
      · intro hn
        rw [ih2 (hn.resolve_left fun e => hk e.symm)]
        simp [hk]

theorem covered {α : Type} {a b : List α} (h : a.Nodup) (hs : ∀ x ∈ a, x ∈ b) (hl : b.length ≤ a.length) :
    ∀ x ∈ b, x ∈ a := by
  intro x hx
  exact ((List.subperm_of_subset h hs).perm_of_length_le hl).mem_iff.mpr hx

theorem keysOf_length {m : PyMap K V} {a b : List K} (ha : KeysOf m a) (hb : KeysOf m b) :
    a.length = b.length :=
  ((List.perm_ext_iff_of_nodup ha.1 hb.1).mpr fun k => (ha.2 k).trans (hb.2 k).symm).length_eq

/-! ### The shell -/

/-- Distinct keys, and a right length. -/
structure Good (s : Shell K V) : Prop where
  inner : (sdKeys s.inner).Nodup
  muts : (sdKeys s.muts).Nodup
  len : ∃ l, KeysOf s.get l ∧ s.len = l.length

theorem get_eq (s : Shell K V) (k : K) :
    s.get k = ((sdGet s.muts k).getD (sdGet s.inner k)) := by
  unfold Shell.get
  cases h : sdGet s.muts k with
  | none => rfl
  | some v => cases v <;> rfl

theorem keysOf_set {m : PyMap K V} {l : List K} (h : KeysOf m l) (k : K) (v : V) :
    KeysOf (m.set k v) (if m k = none then l ++ [k] else l) := by
  obtain ⟨h1, h2⟩ := h
  by_cases hk : m k = none
  · rw [if_pos hk]
    constructor
    · rw [List.nodup_append]
      refine ⟨h1, by simp, ?_⟩
      intro a ha b hb
      simp at hb
      rw [hb]
      rintro rfl
      obtain ⟨v, hv⟩ := (h2 a).mp ha
      rw [hk] at hv
      simp at hv
    · intro x
      unfold PyMap.set
      by_cases hx : x = k
      · simp [hx]
      · simp [hx, h2]
  · rw [if_neg hk]
    refine ⟨h1, ?_⟩
    intro x
    unfold PyMap.set
    by_cases hx : x = k
    · simp only [hx, if_true, Option.some.injEq, exists_eq', iff_true]
      rw [h2]
      exact Option.ne_none_iff_exists'.mp hk
    · simp [hx, h2]

theorem keysOf_erase {m : PyMap K V} {l : List K} (h : KeysOf m l) (k : K) :
    KeysOf (m.erase k) (l.erase k) := by
  obtain ⟨h1, h2⟩ := h
  refine ⟨h1.erase k, ?_⟩
  intro x
  rw [h1.mem_erase_iff, h2]
  unfold PyMap.erase
  by_cases hx : x = k <;> simp [hx]

theorem get_set (s : Shell K V) (k : K) (v : V) : (s.set k v).get = PyMap.set s.get k v := by
  funext x
  rw [get_eq]
  unfold Shell.set PyMap.set
  simp only [sdGet_set]
  by_cases hx : x = k
  · simp [hx]
  · simp [hx, get_eq]

theorem good_set {s : Shell K V} (h : Good s) (k : K) (v : V) : Good (s.set k v) := by
  obtain ⟨h1, h2, l, h3, h4⟩ := h
  refine ⟨h1, nodup_set h2 _ _, _, by rw [get_set]; exact keysOf_set h3 k v, ?_⟩
  unfold Shell.set
  simp only
  cases hg : s.get k with
  | none => simp [h4]
  | some w => simp [h4]

theorem del_spec {s : Shell K V} (h : Good s) (k : K) :
    (s.get k = none ∧ s.del k = none) ∨
    (s.get k ≠ none ∧ ∃ s', s.del k = some s' ∧ Good s' ∧ s'.get = PyMap.erase s.get k ∧ s'.inner = s.inner) := by
  obtain ⟨h1, h2, l, h3, h4⟩ := h
  have key : s.get k ≠ none →
      Good { s with muts := sdSet s.muts k none, len := s.len - 1 } ∧
      Shell.get { s with muts := sdSet s.muts k none, len := s.len - 1 } = PyMap.erase s.get k := by
    intro hk
    have hget : Shell.get { s with muts := sdSet s.muts k none, len := s.len - 1 } = PyMap.erase s.get k := by
      funext x
      rw [get_eq]
      unfold PyMap.erase
      simp only [sdGet_set]
      by_cases hx : x = k
      · simp [hx]
      · simp [hx, get_eq]
    refine ⟨⟨h1, nodup_set h2 _ _, l.erase k, ?_, ?_⟩, hget⟩
    · rw [hget]; exact keysOf_erase h3 k
    · have hm : k ∈ l := (h3.2 k).mpr (Option.ne_none_iff_exists'.mp hk)
      have := List.length_pos_of_mem hm
      simp only [List.length_erase_of_mem hm, h4]
      omega
  have hg := get_eq s k
  unfold Shell.del
  cases hm : sdGet s.muts k with
  | none =>
    rw [hm] at hg
    simp only [Option.getD_none] at hg
    simp only
    cases hi : sdGet s.inner k with
    | none =>
      left
      rw [hi] at hg
      exact ⟨hg, by simp⟩
    | some w =>
      right
      rw [hi] at hg
      have hne : s.get k ≠ none := by rw [hg]; simp
      exact ⟨hne, _, by simp, (key hne).1, (key hne).2, rfl⟩
  | some o =>
    rw [hm] at hg
    simp only [Option.getD_some] at hg
    cases o with
    | none => exact Or.inl ⟨hg, rfl⟩
    | some w =>
      have hne : s.get k ≠ none := by rw [hg]; simp
      exact Or.inr ⟨hne, _, rfl, (key hne).1, (key hne).2, rfl⟩

theorem mem_live {d : List (K × Option V)} (h : (sdKeys d).Nodup) (k : K) :
    k ∈ (d.filter fun e => e.2.isSome).map (·.1) ↔ ∃ v, sdGet d k = some (some v) := by
  rw [List.mem_map]
  constructor
  · rintro ⟨⟨a, b⟩, he, rfl⟩
    rw [List.mem_filter] at he
    obtain ⟨v, hv⟩ := Option.isSome_iff_exists.mp he.2
    simp only at hv
    exact ⟨v, (sdGet_mem h _ _).mpr (by rw [← hv]; exact he.1)⟩
  · rintro ⟨v, hv⟩
    exact ⟨(k, some v), List.mem_filter.mpr ⟨(sdGet_mem h _ _).mp hv, rfl⟩, rfl⟩

theorem mem_dead {d : List (K × Option V)} (h : (sdKeys d).Nodup) (k : K) :
    k ∈ (d.filter fun e => e.2.isNone).map (·.1) ↔ sdGet d k = some none := by
  rw [List.mem_map]
  constructor
  · rintro ⟨⟨a, b⟩, he, rfl⟩
    rw [List.mem_filter] at he
    have hv : b = none := by simpa using he.2
    exact (sdGet_mem h _ _).mpr (by rw [← hv]; exact he.1)
  · intro hv
    exact ⟨(k, none), List.mem_filter.mpr ⟨(sdGet_mem h _ _).mp hv, rfl⟩, rfl⟩

theorem keysOf_iter {s : Shell K V} (h : Good s) : KeysOf s.get s.iter := by
  obtain ⟨h1, h2, _⟩ := h
  have hmem : ∀ k, k ∈ (sdKeys s.inner).filter (fun k => !(sdKeys s.muts).contains k) ↔
      sdGet s.muts k = none ∧ ∃ v, sdGet s.inner k = some v := by
    intro k
    rw [List.mem_filter, sdGet_some_mem, sdGet_none]
    simp [and_comm]
  constructor
  · unfold Shell.iter
    rw [List.nodup_append]
    refine ⟨h1.filter _, ?_, ?_⟩
    · exact List.Nodup.sublist (List.Sublist.map _ List.filter_sublist) h2
    · intro a ha b hb
      rintro rfl
      have h3 := ((hmem a).mp ha).1
      obtain ⟨v, hv⟩ := (mem_live h2 a).mp hb
      rw [h3] at hv
      simp at hv
  · intro k
    unfold Shell.iter
    simp only
    rw [List.mem_append, hmem, mem_live h2, get_eq]
    cases hm : sdGet s.muts k with
    | none => simp
    | some o => simp

theorem itemsOf_items {s : Shell K V} (h : Good s) : ItemsOf s.get s.items := by
  have hk := keysOf_iter h
  unfold Shell.items
  have hmap : (s.iter.filterMap fun k => (s.get k).map fun v => (k, v)).map (·.1) = s.iter := by
    rw [List.map_filterMap]
    have : ∀ l : List K, (∀ k ∈ l, ∃ v, s.get k = some v) →
        l.filterMap (fun k => Option.map (·.1) ((s.get k).map fun v => (k, v))) = l := by
      intro l
      induction l with
      | nil => intro _; rfl
      | cons k l ih =>
        intro hl
        obtain ⟨v, hv⟩ := hl k (by simp)
        rw [List.filterMap_cons, hv]
        simp only [Option.map_some]
        rw [ih fun k hk => hl k (by simp [hk])]
    exact this _ fun k hk' => (hk.2 k).mp hk'
  refine ⟨by rw [hmap]; exact hk.1, ?_⟩
  intro k v
  rw [List.mem_filterMap]
  constructor
  · rintro ⟨k', _, he⟩
    cases hg : s.get k' with
    | none => rw [hg] at he; simp at he
    | some w =>
      rw [hg] at he
      simp at he
      obtain ⟨rfl, rfl⟩ := he
      exact hg
  · intro hg
    exact ⟨k, (hk.2 k).mpr ⟨v, hg⟩, by rw [hg]; rfl⟩

theorem reversed_mem {s : Shell K V} (h : Good s) : ∀ k, k ∈ s.reversed ↔ ∃ v, s.get k = some v := by
  obtain ⟨h1, h2, _⟩ := h
  intro k
  unfold Shell.reversed
  simp only
  rw [List.mem_append, List.filter_reverse, List.map_reverse, List.mem_reverse, mem_live h2, List.mem_filter]
  have e1 : k ∈ sdKeys s.inner.reverse ↔ ∃ v, sdGet s.inner k = some v := by
    rw [← sdGet_some_mem]
    unfold sdKeys
    rw [List.map_reverse, List.mem_reverse]
  have e2 : (!((s.muts.filter fun e => e.2.isNone).map (·.1)).contains k) = true ↔ sdGet s.muts k ≠ some none := by
    have := mem_dead h2 k
    rw [Bool.not_eq_true', ← Bool.not_eq_true, List.contains_iff_mem, this]
  rw [e1, e2, get_eq]
  cases hm : sdGet s.muts k with
  | none => simp
  | some o => cases o <;> simp

theorem popitem_spec {s : Shell K V} (h : Good s) :
    ((∀ k, s.get k = none) ∧ s.popitem = none) ∨
    (∃ k v s', s.get k = some v ∧ s.popitem = some ((k, v), s') ∧ Good s' ∧ s'.get = PyMap.erase s.get k ∧
      s'.inner = s.inner) := by
  have hm := reversed_mem h
  unfold Shell.popitem
  cases hr : s.reversed with
  | nil =>
    left
    refine ⟨fun k => ?_, rfl⟩
    cases hg : s.get k with
    | none => rfl
    | some v =>
      have := (hm k).mpr ⟨v, hg⟩
      rw [hr] at this
      simp at this
  | cons k r =>
    right
    obtain ⟨v, hv⟩ := (hm k).mp (by rw [hr]; simp)
    rcases del_spec h k with ⟨h1, _⟩ | ⟨_, s', h2, h3, h4, h5⟩
    · rw [hv] at h1; simp at h1
    · exact ⟨k, v, s', hv, by simp [hv, h2], h3, h4, h5⟩

theorem clear_spec : ∀ (fuel : Nat) (s : Shell K V), Good s → s.iter.length < fuel →
    Good (Shell.clearLoop fuel s) ∧ (Shell.clearLoop fuel s).get = (fun _ => none) ∧
      (Shell.clearLoop fuel s).inner = s.inner := by
  intro fuel
  induction fuel with
  | zero => intro s _ h; omega
  | succ fuel ih =>
    intro s hg hl
    unfold Shell.clearLoop
    rcases popitem_spec hg with ⟨h1, h2⟩ | ⟨k, v, s', h1, h2, h3, h4, h5⟩
    · rw [h2]
      exact ⟨hg, funext h1, rfl⟩
    · rw [h2]
      simp only
      rw [← h5]
      refine ih s' h3 ?_
      have hk := keysOf_iter hg
      have hk' := keysOf_iter h3
      rw [h4] at hk'
      have hm : k ∈ s.iter := (hk.2 k).mpr ⟨v, h1⟩
      have := keysOf_length hk' (keysOf_erase hk k)
      rw [List.length_erase_of_mem hm] at this
      have := List.length_pos_of_mem hm
      omega

theorem update_spec : ∀ (l : List (K × V)) (s : Shell K V), Good s →
    Good (s.update l) ∧ (s.update l).get = l.foldl (fun m e => PyMap.set m e.1 e.2) s.get ∧
      (s.update l).inner = s.inner := by
  intro l
  induction l with
  | nil => intro s h; exact ⟨h, rfl, rfl⟩
  | cons e l ih =>
    intro s h
    unfold Shell.update
    simp only [List.foldl_cons]
    obtain ⟨h1, h2, h3⟩ := ih (s.set e.1 e.2) (good_set h _ _)
    unfold Shell.update at h1 h2 h3
    refine ⟨h1, ?_, h3⟩
    rw [h2, get_set]

theorem good_new {inner : List (K × V)} (h : (sdKeys inner).Nodup) : Good (Shell.new inner) := by
  refine ⟨h, by simp [Shell.new, sdKeys], sdKeys inner, ⟨h, ?_⟩, by simp [Shell.new, sdKeys]⟩
  intro k
  rw [sdGet_some_mem, get_eq]
  rfl

theorem get_new (inner : List (K × V)) : (Shell.new inner).get = sdGet inner := by
  funext k
  rw [get_eq]
  rfl

theorem mapEq_spec [DecidableEq V] {a b : List (K × V)} (ha : (sdKeys a).Nodup) (hb : (sdKeys b).Nodup) :
    mapEq a b = true ↔ ∀ k v, sdGet a k = some v ↔ (k, v) ∈ b := by
  have hfind : ∀ (b : List (K × V)) (k : K), (b.find? fun f => decide (f.1 = k)).map (·.2) = sdGet b k := by
    intro b k
    induction b with
    | nil => rfl
    | cons e b ih =>
      obtain ⟨x, y⟩ := e
      simp only [List.find?_cons, sdGet]
      by_cases h : x = k
      · simp [h]
      · simp [h, ih]
  have hitem : ∀ e : K × V, ((b.find? fun f => decide (f.1 = e.1)).map fun f => decide (e.2 = f.2)).getD false = true ↔
      e ∈ b := by
    intro e
    obtain ⟨k, v⟩ := e
    rw [← sdGet_mem hb, ← hfind b k]
    simp only
    cases b.find? fun f => decide (f.1 = k) with
    | none => simp
    | some f => simp [eq_comm]
  have hna : a.Nodup := List.Nodup.of_map _ ha
  have hnb : b.Nodup := List.Nodup.of_map _ hb
  unfold mapEq
  simp only [sdGet_mem ha]
  by_cases hl : a.length ≠ b.length
  · rw [if_pos hl]
    simp only [Bool.false_eq_true, false_iff]
    intro h
    exact hl ((List.perm_ext_iff_of_nodup hna hnb).mpr fun e => h e.1 e.2).length_eq
  · rw [if_neg hl, List.all_eq_true]
    simp only [hitem]
    constructor
    · intro h k v
      exact ⟨h (k, v), covered hna h (by omega) (k, v)⟩
    · intro h e he; exact (h e.1 e.2).mp he

theorem eq_spec [DecidableEq V] {s : Shell K V} (h : Good s) {l : List (K × V)} (hl : (sdKeys l).Nodup) :
    s.eq l = true ↔ ∀ k v, s.get k = some v ↔ (k, v) ∈ l := by
  unfold Shell.eq
  by_cases h0 : s.muts.length = 0
  · rw [if_pos h0, mapEq_spec h.inner hl]
    have : s.get = sdGet s.inner := by
      funext k
      rw [get_eq, List.length_eq_zero_iff.mp h0]
      rfl
    rw [this]
  · rw [if_neg h0]
    have hk := keysOf_iter h
    obtain ⟨ks, hks, hlen⟩ := h.len
    have hkl : (sdKeys l).length = l.length := by simp [sdKeys]
    by_cases hne : s.len ≠ l.length
    · rw [if_pos hne]
      simp only [Bool.false_eq_true, false_iff]
      intro he
      apply hne
      have : KeysOf s.get (sdKeys l) := by
        refine ⟨hl, fun k => ?_⟩
        rw [sdGet_some_mem]
        simp only [sdGet_mem hl, he]
      have := keysOf_length hks this
      rw [hlen, this, hkl]
    · rw [if_neg hne, List.all_eq_true]
      simp only [decide_eq_true_eq]
      have hne : s.len = l.length := by simpa using hne
      constructor
      · intro hall k v
        constructor
        · intro hg
          have hc := covered (a := sdKeys l) (b := ks) hl (by
            intro x hx
            obtain ⟨y, hy⟩ := (sdGet_some_mem l x).mp hx
            exact (hks.2 x).mpr ⟨y, hall (x, y) ((sdGet_mem hl _ _).mp hy)⟩) (by omega) k
            ((hks.2 k).mpr ⟨v, hg⟩)
          obtain ⟨y, hy⟩ := (sdGet_some_mem l k).mp hc
          have hm := (sdGet_mem hl _ _).mp hy
          have := hall (k, y) hm
          simp only at this
          rw [hg] at this
          simp at this
          rw [this]; exact hm
        · intro hm; exact hall (k, v) hm
      · intro he e hm; exact (he e.1 e.2).mpr hm

theorem step_spec [DecidableEq V] {s : Shell K V} (h : Good s) (op : Op K V) (hv : op.Valid) :
    MapStep s.get op (s.step op).1 (s.step op).2.get ∧ Good (s.step op).2 ∧ (s.step op).2.inner = s.inner := by
  cases op with
  | get k => exact ⟨⟨rfl, rfl⟩, h, rfl⟩
  | contains k =>
    refine ⟨⟨rfl, _, rfl, ?_⟩, h, rfl⟩
    rw [Option.isSome_iff_exists]
  | set k v => exact ⟨⟨get_set s k v, rfl⟩, good_set h k v, rfl⟩
  | del k =>
    dsimp only [Shell.step, MapStep]
    rcases del_spec h k with ⟨h1, h2⟩ | ⟨h1, s', h2, h3, h4, h5⟩
    · rw [h2]
      rw [if_pos h1]
      exact ⟨⟨rfl, rfl⟩, h, rfl⟩
    · rw [h2]
      rw [if_neg h1]
      exact ⟨⟨h4, rfl⟩, h3, h5⟩
  | len =>
    obtain ⟨l, h1, h2⟩ := h.len
    exact ⟨⟨rfl, l, h1, by simp only [Shell.step, h2]⟩, h, rfl⟩
  | truth =>
    obtain ⟨l, h1, h2⟩ := h.len
    refine ⟨⟨rfl, _, rfl, ?_⟩, h, rfl⟩
    rw [decide_eq_true_eq, h2]
    constructor
    · intro hl
      obtain ⟨k, hk⟩ := List.exists_mem_of_length_pos (l := l) (by omega)
      exact ⟨k, (h1.2 k).mp hk⟩
    · rintro ⟨k, hk⟩
      have := List.length_pos_of_mem ((h1.2 k).mpr hk)
      omega
  | keys => exact ⟨⟨rfl, _, keysOf_iter h, rfl⟩, h, rfl⟩
  | items => exact ⟨⟨rfl, _, itemsOf_items h, rfl⟩, h, rfl⟩
  | pop k d =>
    dsimp only [Shell.step, MapStep, Shell.pop]
    obtain ⟨l, h1, h2⟩ := h.len
    cases hg : s.get k with
    | none =>
      have : (if s.len > 0 then (d, s) else (d, s)) = (d, s) := by split <;> rfl
      dsimp only
      rw [this]
      exact ⟨Or.inr ⟨rfl, rfl, rfl⟩, h, rfl⟩
    | some v =>
      have hl := List.length_pos_of_mem ((h1.2 k).mpr ⟨v, hg⟩)
      rw [if_pos (by omega)]
      rcases del_spec h k with ⟨g1, _⟩ | ⟨_, s', g2, g3, g4, g5⟩
      · rw [hg] at g1; simp at g1
      · rw [g2]
        exact ⟨Or.inl ⟨v, rfl, g4, rfl⟩, g3, g5⟩
  | popitem =>
    dsimp only [Shell.step, MapStep]
    rcases popitem_spec h with ⟨h1, h2⟩ | ⟨k, v, s', h1, h2, h3, h4, h5⟩
    · rw [h2]
      exact ⟨Or.inr ⟨h1, rfl, rfl⟩, h, rfl⟩
    · rw [h2]
      exact ⟨Or.inl ⟨k, v, h1, h4, rfl⟩, h3, h5⟩
  | setdefault k v =>
    dsimp only [Shell.step, MapStep]
    cases hg : s.get k with
    | none => exact ⟨Or.inr ⟨rfl, get_set s k v, rfl⟩, good_set h k v, rfl⟩
    | some w => exact ⟨Or.inl ⟨w, rfl, rfl, rfl⟩, h, rfl⟩
  | update l =>
    obtain ⟨h1, h2, h3⟩ := update_spec l s h
    exact ⟨⟨h2, rfl⟩, h1, h3⟩
  | clear =>
    obtain ⟨h1, h2, h3⟩ := clear_spec (s.iter.length + 1) s h (by omega)
    exact ⟨⟨h2, rfl⟩, h1, h3⟩
  | eq l => exact ⟨⟨rfl, _, rfl, eq_spec h hv⟩, h, rfl⟩

end Verif.Maps
