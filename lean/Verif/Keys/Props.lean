/- Theorems about dictionaries and sets without hashing. -/
import Verif.Keys.Model
import Mathlib.Tactic.Common
import Mathlib.Data.List.Pairwise

namespace Verif.Keys

variable {K V : Type} [DecidableEq K]

omit [DecidableEq K] in
theorem finds_iff {w : World K} (hw : Lawful w) {a b : K} (ha : w.hash a ≠ none) (hb : w.hash b ≠ none) : Finds w a b ↔ a = b ∨ w.eq a b = true := by
  constructor
  · rintro (h | h)
    · exact .inl h
    · exact .inr h.2
  · rintro (h | h)
    · exact .inl h
    · exact .inr ⟨hw.hash a b h ha hb, h⟩

omit [DecidableEq K] in
theorem finds_refl {w : World K} (hw : Lawful w) {a b : K} (ha : w.hash a ≠ none) (hb : w.hash b ≠ none) (hr : w.eq b b = true) :
    Finds w a b ↔ w.eq a b = true := by
  rw [finds_iff hw ha hb]
  constructor
  · rintro (rfl | h)
    · exact hr
    · exact h
  · exact .inr

theorem find_some {w : World K} {d : List (K × V)} {k : K} {v : V} (h : find w d k = some v) : ∃ e ∈ d, (e.1 = k ∨ w.eq e.1 k = true) ∧ e.2 = v := by
  induction d with
  | nil => cases h
  | cons e d ih =>
    obtain ⟨k', v'⟩ := e
    simp only [find] at h
    split at h
    · cases h; exact ⟨_, List.mem_cons_self, by assumption, rfl⟩
    · obtain ⟨e, he, h⟩ := ih h
      exact ⟨e, List.mem_cons_of_mem _ he, h⟩

theorem find_none {w : World K} {d : List (K × V)} {k : K} (h : find w d k = none) : ∀ e ∈ d, ¬ (e.1 = k ∨ w.eq e.1 k = true) := by
  induction d with
  | nil => simp
  | cons e d ih =>
    obtain ⟨k', v'⟩ := e
    simp only [find] at h
    split at h
    · cases h
    · rename_i hn
      intro e he
      rcases List.mem_cons.1 he with rfl | he
      · exact hn
      · exact ih h e he

omit [DecidableEq K] in
theorem put_cases (w : World K) (d : List (K × V)) (k : K) (v : V) :
    (∃ l k' v' r, d = l ++ (k', v') :: r ∧ w.eq k' k = true ∧ put w d k v = l ++ (k', v) :: r) ∨
    ((∀ e ∈ d, ¬ w.eq e.1 k = true) ∧ put w d k v = d ++ [(k, v)]) := by
  induction d with
  | nil => right; simp [put]
  | cons e d ih =>
    obtain ⟨k0, v0⟩ := e
    simp only [put]
    by_cases h : w.eq k0 k = true
    · rw [if_pos h]; exact .inl ⟨[], k0, v0, d, rfl, h, rfl⟩
    · rw [if_neg h]
      rcases ih with ⟨l, k', v', r, rfl, h1, h2⟩ | ⟨h1, h2⟩
      · left; exact ⟨(k0, v0) :: l, k', v', r, rfl, h1, by rw [h2]; rfl⟩
      · right
        refine ⟨?_, by rw [h2]; rfl⟩
        intro e he
        rcases List.mem_cons.1 he with rfl | he
        · exact h
        · exact h1 e he

omit [DecidableEq K] in
theorem remove_cases (w : World K) (d : List (K × V)) (k : K) :
    (∃ l k' v' r, d = l ++ (k', v') :: r ∧ w.eq k' k = true ∧ remove w d k = some (l ++ r)) ∨
    ((∀ e ∈ d, ¬ w.eq e.1 k = true) ∧ remove w d k = none) := by
  induction d with
  | nil => right; simp [remove]
  | cons e d ih =>
    obtain ⟨k0, v0⟩ := e
    simp only [remove]
    by_cases h : w.eq k0 k = true
    · rw [if_pos h]; exact .inl ⟨[], k0, v0, d, rfl, h, rfl⟩
    · rw [if_neg h]
      rcases ih with ⟨l, k', v', r, rfl, h1, h2⟩ | ⟨h1, h2⟩
      · left; exact ⟨(k0, v0) :: l, k', v', r, rfl, h1, by rw [h2]; rfl⟩
      · right
        refine ⟨?_, by rw [h2]; rfl⟩
        intro e he
        rcases List.mem_cons.1 he with rfl | he
        · exact h
        · exact h1 e he

/-- A key that can be used: the check of its type tells whether it can be hashed. -/
def Checked (w : World K) (k : K) : Prop := w.typeHash k = (w.hash k).isSome

omit [DecidableEq K] in
theorem checked_type {w : World K} {k : K} (h : Checked w k) : w.typeHash k = true ↔ w.hash k ≠ none := by
  unfold Checked at h
  rw [h, Option.isSome_iff_ne_none]

/-- Looking up a key gives what Python gives, also for NaN: its value, `KeyError` or `TypeError`; if the type's having `__hash__` tells
whether the key can be hashed. -/
theorem get_partial {w : World K} (hw : Lawful w) {d : List (K × V)} (hd : IsDict w d) {k : K} (hk : Checked w k) :
    PyStep w d (.get k) (step w d (.get k)).1 (step w d (.get k)).2 := by
  simp only [step, getItem]
  by_cases ht : w.typeHash k = true
  · have hh := (checked_type hk).1 ht
    rw [if_neg (not_not.2 ht)]
    right
    refine ⟨hh, ?_⟩
    cases hf : find w d k with
    | some v =>
      obtain ⟨e, he, h1, rfl⟩ := find_some hf
      exact ⟨rfl, .inl ⟨e, he, (finds_iff hw (hd.hashable e he) hh).2 h1, rfl⟩⟩
    | none =>
      refine ⟨rfl, .inr ⟨fun e he => ?_, rfl⟩⟩
      rw [finds_iff hw (hd.hashable e he) hh]
      exact find_none hf e he
  · rw [if_pos ht]
    left
    exact ⟨by by_contra h; exact ht ((checked_type hk).2 h), rfl, rfl⟩

/-- Every operation does what Python does, and keeps the keys distinct, for keys equal to themselves. -/
theorem step_partial {w : World K} (hw : Lawful w) {d : List (K × V)} (hd : IsDict w d) (o : Op K V) (hk : Checked w o.key)
    (hr : w.eq o.key o.key = true) : PyStep w d o (step w d o).1 (step w d o).2 ∧ IsDict w (step w d o).2 := by
  cases o with
  | get k =>
    refine ⟨get_partial hw hd hk, ?_⟩
    simp only [step]
    split <;> exact hd
  | set k v =>
    simp only [Op.key] at hk hr
    simp only [step, setItem]
    by_cases ht : w.typeHash k = true
    · have hh := (checked_type hk).1 ht
      rw [if_neg (not_not.2 ht)]
      dsimp only
      rcases put_cases w d k v with ⟨l, k', v', r, rfl, h1, h2⟩ | ⟨h1, h2⟩
      · have hk' : w.hash k' ≠ none := hd.hashable (k', v') (by simp)
        rw [h2]
        refine ⟨.inr ⟨hh, rfl, .inl ⟨l, k', v', r, rfl, (finds_refl hw hk' hh hr).2 h1, rfl⟩⟩, ?_, ?_⟩
        · have := hd.distinct
          simp only [List.pairwise_append, List.pairwise_cons] at this ⊢
          refine ⟨this.1, ⟨this.2.1.1, this.2.1.2⟩, fun a ha b hb => ?_⟩
          rcases List.mem_cons.1 hb with rfl | hb
          · exact this.2.2 a ha (k', v') List.mem_cons_self
          · exact this.2.2 a ha b (List.mem_cons_of_mem _ hb)
        · intro e he
          simp only [List.mem_append, List.mem_cons] at he
          rcases he with he | rfl | he
          · exact hd.hashable e (by simp [he])
          · exact hk'
          · exact hd.hashable e (by simp [he])
      · rw [h2]
        have hno : ∀ e ∈ d, ¬ Finds w e.1 k := fun e he => by
          rw [finds_refl hw (hd.hashable e he) hh hr]; exact h1 e he
        refine ⟨.inr ⟨hh, rfl, .inr ⟨hno, rfl⟩⟩, ?_, ?_⟩
        · rw [List.pairwise_append]
          exact ⟨hd.distinct, List.pairwise_singleton _ _, fun a ha b hb => by rw [List.mem_singleton.1 hb]; exact hno a ha⟩
        · intro e he
          rcases List.mem_append.1 he with he | he
          · exact hd.hashable e he
          · rw [List.mem_singleton.1 he]; exact hh
    · rw [if_pos ht]
      exact ⟨.inl ⟨by by_contra h; exact ht ((checked_type hk).2 h), rfl, rfl⟩, hd⟩
  | del k =>
    simp only [Op.key] at hk hr
    simp only [step, delItem]
    by_cases ht : w.typeHash k = true
    · have hh := (checked_type hk).1 ht
      rw [if_neg (not_not.2 ht)]
      rcases remove_cases w d k with ⟨l, k', v', r, rfl, h1, h2⟩ | ⟨h1, h2⟩
      · have hk' : w.hash k' ≠ none := hd.hashable (k', v') (by simp)
        rw [h2]
        have hs : (l ++ r).Sublist (l ++ (k', v') :: r) := List.Sublist.append_left (List.sublist_cons_self _ _) l
        exact ⟨.inr ⟨hh, .inl ⟨l, k', v', r, rfl, (finds_refl hw hk' hh hr).2 h1, rfl, rfl⟩⟩, hd.distinct.sublist hs,
          fun e he => hd.hashable e (hs.subset he)⟩
      · rw [h2]
        refine ⟨.inr ⟨hh, .inr ⟨fun e he => ?_, rfl, rfl⟩⟩, hd⟩
        rw [finds_refl hw (hd.hashable e he) hh hr]; exact h1 e he
    · rw [if_pos ht]
      exact ⟨.inl ⟨by by_contra h; exact ht ((checked_type hk).2 h), rfl, rfl⟩, hd⟩

/-- Any history of lookups, assignments and deletions gives what it gives in Python, with the items in the same order, whatever classes the
keys are of, if they follow Python's rules for `__eq__` and `__hash__` and are equal to themselves. -/
theorem history_partial {w : World K} (hw : Lawful w) (os : List (Op K V)) (ho : ∀ o ∈ os, Checked w o.key ∧ w.eq o.key o.key = true) :
    ∀ {d : List (K × V)}, IsDict w d → PyRuns w d os (run w d os).1 (run w d os).2 ∧ IsDict w (run w d os).2 := by
  induction os with
  | nil => intro d hd; exact ⟨.nil d, hd⟩
  | cons o os ih =>
    intro d hd
    obtain ⟨h1, h2⟩ := ho o List.mem_cons_self
    obtain ⟨h3, h4⟩ := step_partial hw hd o h1 h2
    obtain ⟨h5, h6⟩ := ih (fun o' h => ho o' (List.mem_cons_of_mem _ h)) h4
    exact ⟨.cons h3 h5, h6⟩

omit [DecidableEq K] in
theorem finds_both {w : World K} (hw : Lawful w) {a b k : K} (ha : w.hash a ≠ none) (hb : w.hash b ≠ none) (hk : w.hash k ≠ none)
    (h1 : Finds w a k) (h2 : Finds w b k) : Finds w a b := by
  rw [finds_iff hw ha hk] at h1
  rw [finds_iff hw hb hk] at h2
  rw [finds_iff hw ha hb]
  rcases h1 with rfl | h1
  · rcases h2 with rfl | h2
    · exact .inl rfl
    · exact .inr (hw.symm _ _ h2)
  · rcases h2 with rfl | h2
    · exact .inr h1
    · exact .inr (hw.trans _ _ _ h1 (hw.symm _ _ h2))

theorem split_unique {α : Type} {P : α → Prop} {R : α → α → Prop} (hR : ∀ x y, P x → P y → ¬ R x y) : ∀ {l l' r r' : List α} {x x' : α},
    (l ++ x :: r).Pairwise R → l ++ x :: r = l' ++ x' :: r' → P x → P x' → l = l' ∧ x = x' ∧ r = r'
  | [], [], _, _, _, _, _, h, _, _ => by cases h; exact ⟨rfl, rfl, rfl⟩
  | [], y :: l', r, r', x, x', hp, h, h1, h2 => by
    simp only [List.nil_append, List.cons_append, List.cons.injEq] at h
    obtain ⟨rfl, rfl⟩ := h
    exact absurd ((List.pairwise_cons.1 hp).1 x' (by simp)) (hR _ _ h1 h2)
  | y :: l, [], r, r', x, x', hp, h, h1, h2 => by
    simp only [List.nil_append, List.cons_append, List.cons.injEq] at h
    obtain ⟨rfl, rfl⟩ := h
    exact absurd ((List.pairwise_cons.1 hp).1 x (by simp)) (hR _ _ h2 h1)
  | y :: l, z :: l', r, r', x, x', hp, h, h1, h2 => by
    simp only [List.cons_append, List.cons.injEq] at h
    obtain ⟨rfl, h⟩ := h
    obtain ⟨rfl, h3, h4⟩ := split_unique hR (List.pairwise_cons.1 hp).2 h h1 h2
    exact ⟨rfl, h3, h4⟩

/-- What Python gives is determined: the specification leaves no choice. -/
theorem python_determined {w : World K} (hw : Lawful w) {d : List (K × V)} (hd : IsDict w d) {o : Op K V} {r r' : Except Err (Option V)}
    {d' d'' : List (K × V)} (h : PyStep w d o r d') (h' : PyStep w d o r' d'') : r = r' ∧ d' = d'' := by
  rcases h with ⟨hn, rfl, rfl⟩ | ⟨hn, h⟩
  · rcases h' with ⟨_, rfl, rfl⟩ | ⟨hn', _⟩
    · exact ⟨rfl, rfl⟩
    · exact absurd hn hn'
  rcases h' with ⟨hn', _⟩ | ⟨_, h'⟩
  · exact absurd hn' hn
  have hboth : ∀ e ∈ d, ∀ f ∈ d, Finds w e.1 o.key → Finds w f.1 o.key → Finds w e.1 f.1 := fun e he f hf =>
    finds_both hw (hd.hashable e he) (hd.hashable f hf) hn
  have huniq : ∀ {l l' r r' : List (K × V)} {x x' : K × V}, d = l ++ x :: r → d = l' ++ x' :: r' → Finds w x.1 o.key → Finds w x'.1 o.key →
      l = l' ∧ x = x' ∧ r = r' := by
    intro l l' r r' x x' h1 h2 h3 h4
    have hpair : d.Pairwise fun e f => (e ∈ d ∧ f ∈ d) ∧ ¬ Finds w e.1 f.1 := by
      refine List.Pairwise.imp_of_mem ?_ hd.distinct
      intro a b ha hb hab
      exact ⟨⟨ha, hb⟩, hab⟩
    refine split_unique (P := fun e => Finds w e.1 o.key) (R := fun e f => (e ∈ d ∧ f ∈ d) ∧ ¬ Finds w e.1 f.1) ?_ (h1 ▸ hpair) (h1 ▸ h2) h3 h4
    rintro a b ha hb ⟨⟨hma, hmb⟩, hab⟩
    exact hab (hboth a hma b hmb ha hb)
  cases o with
  | get k =>
    obtain ⟨rfl, h⟩ := h
    obtain ⟨rfl, h'⟩ := h'
    refine ⟨?_, rfl⟩
    rcases h with ⟨e, he, h1, rfl⟩ | ⟨h1, rfl⟩ <;> rcases h' with ⟨f, hf, h2, rfl⟩ | ⟨h2, rfl⟩
    · obtain ⟨l, r, h3⟩ := List.append_of_mem he
      obtain ⟨l', r', h4⟩ := List.append_of_mem hf
      rw [(huniq h3 h4 h1 h2).2.1]
    · exact absurd h1 (h2 e he)
    · exact absurd h2 (h1 f hf)
    · rfl
  | set k v =>
    obtain ⟨rfl, h⟩ := h
    obtain ⟨rfl, h'⟩ := h'
    refine ⟨rfl, ?_⟩
    rcases h with ⟨l, k1, v1, r, h1, h2, rfl⟩ | ⟨h1, rfl⟩ <;> rcases h' with ⟨l', k2, v2, r', h3, h4, rfl⟩ | ⟨h3, rfl⟩
    · obtain ⟨rfl, h5, rfl⟩ := huniq h1 h3 h2 h4
      cases h5; rfl
    · exact absurd h2 (h3 (k1, v1) (by rw [h1]; simp))
    · exact absurd h4 (h1 (k2, v2) (by rw [h3]; simp))
    · rfl
  | del k =>
    rcases h with ⟨l, k1, v1, r, h1, h2, rfl, rfl⟩ | ⟨h1, rfl, rfl⟩ <;> rcases h' with ⟨l', k2, v2, r', h3, h4, rfl, rfl⟩ | ⟨h3, rfl, rfl⟩
    · obtain ⟨rfl, h5, rfl⟩ := huniq h1 h3 h2 h4
      exact ⟨rfl, rfl⟩
    · exact absurd h2 (h3 (k1, v1) (by rw [h1]; simp))
    · exact absurd h4 (h1 (k2, v2) (by rw [h3]; simp))
    · exact ⟨rfl, rfl⟩

/-- Integers 2, 3, … and the texts like them; 0 is NaN, and 1 is a tuple that holds a list. The even number after an odd one is an equal object. -/
def world : World Nat := ⟨fun a b => decide (a ≠ 0 ∧ b ≠ 0 ∧ a / 2 = b / 2), fun a => if a = 1 then none else some (a / 2), fun _ => true⟩

theorem world_lawful : Lawful world := by
  constructor
  · intro a b h; simp only [world, decide_eq_true_eq] at *; omega
  · intro a b c h1 h2; simp only [world, decide_eq_true_eq] at *; omega
  · intro a b h h1 h2
    simp only [world, decide_eq_true_eq] at *
    split at h1
    · exact absurd rfl h1
    · split at h2
      · exact absurd rfl h2
      · rename_i h3 h4
        rw [if_neg h3, if_neg h4]
        congr 1
        omega

example : Checked world 4 ∧ world.eq 4 4 = true ∧ run world [] [.set 4 "a", .set 5 "b", .get 4, .del 5, .get 4] =
    ([.ok none, .ok none, .ok (some "b"), .ok none, .error .key], []) := ⟨rfl, rfl, rfl⟩

/-- **Disagreement**: a NaN that is stored twice is there twice, the first value is found, and it cannot be deleted; in Python there is one item,
with the second value, and it can be deleted. -/
theorem nan_stored_twice : run world [] [.set 0 "a", .set 0 "b", .get 0, .del 0] =
      ([.ok none, .ok none, .ok (some "a"), .error .key], [(0, "a"), (0, "b")]) ∧
    PyRuns world [] [.set 0 "a", .set 0 "b", .get 0, .del 0] [.ok none, .ok none, .ok (some "b"), .ok none] [] := by
  refine ⟨rfl, ?_⟩
  refine .cons (d' := [(0, "a")]) (.inr ⟨by decide, rfl, .inr ⟨by simp, rfl⟩⟩) ?_
  refine .cons (d' := [(0, "b")]) (.inr ⟨by decide, rfl, .inl ⟨[], 0, "a", [], rfl, .inl rfl, rfl⟩⟩) ?_
  refine .cons (d' := [(0, "b")]) (.inr ⟨by decide, rfl, .inl ⟨(0, "b"), by simp, .inl rfl, rfl⟩⟩) ?_
  exact .cons (d' := []) (.inr ⟨by decide, .inl ⟨[], 0, "b", [], rfl, .inl rfl, rfl, rfl⟩⟩) (.nil _)

/-- **Disagreement**: a tuple that holds a list is taken as a key, where Python raises `TypeError`. -/
theorem unhashable_accepted : (step world [] (.set 1 "a")) = (.ok none, [(1, "a")]) ∧
    ∀ r d', PyStep world ([] : List (Nat × String)) (.set 1 "a") r d' → r = .error .type := by
  refine ⟨rfl, ?_⟩
  rintro r d' (⟨_, h, _⟩ | ⟨h, _⟩)
  · exact h
  · exact absurd rfl h

/-! ### Equality of dictionaries -/

omit [DecidableEq K] in
theorem searchEq_iff {w : World K} (hw : Lawful w) {veq : V → V → Bool} {b : List (K × V)} (hb : IsDict w b) {k : K} {v : V} :
    searchEq w veq k v b = true ↔ ∃ f ∈ b, w.eq f.1 k = true ∧ veq v f.2 = true := by
  induction b with
  | nil => simp [searchEq]
  | cons f b ih =>
    obtain ⟨k', v'⟩ := f
    have hb' : IsDict w b := ⟨(List.pairwise_cons.1 hb.distinct).2, fun e he => hb.hashable e (List.mem_cons_of_mem _ he)⟩
    simp only [searchEq]
    by_cases h : w.eq k' k = true
    · rw [if_neg (not_not.2 h)]
      constructor
      · intro hv; exact ⟨_, List.mem_cons_self, h, hv⟩
      · rintro ⟨f, hf, h1, h2⟩
        rcases List.mem_cons.1 hf with rfl | hf
        · exact h2
        · refine absurd ?_ ((List.pairwise_cons.1 hb.distinct).1 f hf)
          exact (finds_iff hw (hb.hashable _ List.mem_cons_self) (hb.hashable f (List.mem_cons_of_mem _ hf))).2
            (.inr (hw.trans _ _ _ h (hw.symm _ _ h1)))
    · rw [if_pos h, ih hb']
      constructor
      · rintro ⟨f, hf, h1⟩; exact ⟨f, List.mem_cons_of_mem _ hf, h1⟩
      · rintro ⟨f, hf, h1, h2⟩
        rcases List.mem_cons.1 hf with rfl | hf
        · exact absurd h1 h
        · exact ⟨f, hf, h1, h2⟩

/-- Comparing dictionaries without hashing gives what Python gives, if keys and values are equal to themselves. -/
theorem map_eq_partial {w : World K} (hw : Lawful w) {veq : V → V → Bool} {a b : List (K × V)} (ha : IsDict w a) (hb : IsDict w b)
    (hr : ∀ e ∈ a, w.eq e.1 e.1 = true ∧ veq e.2 e.2 = true) : mapEq w veq a b = true ↔ PyEq w veq a b := by
  unfold mapEq PyEq
  by_cases hl : a.length = b.length
  · rw [if_neg (not_not.2 hl), List.all_eq_true]
    refine ⟨fun h => ⟨hl, fun e he => ?_⟩, fun h e he => ?_⟩
    · obtain ⟨f, hf, h1, h2⟩ := (searchEq_iff hw hb).1 (h e he)
      exact ⟨f, hf, (finds_refl hw (hb.hashable f hf) (ha.hashable e he) (hr e he).1).2 h1, .inr h2⟩
    · obtain ⟨f, hf, h1, h2⟩ := h.2 e he
      refine (searchEq_iff hw hb).2 ⟨f, hf, (finds_refl hw (hb.hashable f hf) (ha.hashable e he) (hr e he).1).1 h1, ?_⟩
      rcases h2 with h2 | h2
      · rw [← h2]; exact (hr e he).2
      · exact h2
  · rw [if_pos hl]
    simp [hl]

example : IsDict world [(4, 1), (7, 2)] ∧ IsDict world [(6, 2), (5, 1)] ∧ mapEq world (fun a b : Nat => a == b) [(4, 1), (7, 2)] [(6, 2), (5, 1)] = true := by
  refine ⟨⟨?_, by decide⟩, ⟨?_, by decide⟩, rfl⟩ <;> simp [Finds, world]

/-- **Disagreement**: dictionaries with the same NaN as value, or as key, are equal in Python and unequal under analysis. -/
theorem nan_unequal : mapEq world world.eq [(4, 0)] [(4, 0)] = false ∧ PyEq world world.eq [(4, 0)] [(4, 0)] ∧
    mapEq world world.eq [(0, 4)] [(0, 4)] = false ∧ PyEq world world.eq [(0, 4)] [(0, 4)] := by
  refine ⟨rfl, ⟨rfl, ?_⟩, rfl, ⟨rfl, ?_⟩⟩ <;> intro e he <;> exact ⟨e, he, .inl rfl, .inl rfl⟩

/-! ### Dictionaries with changes on top -/

theorem find_same {w : World K} (hw : Lawful w) {d : List (K × V)} {k k' : K} (h : k = k' ∨ w.eq k k' = true) (hr : w.eq k k = true) :
    find w d k = find w d k' := by
  have he : w.eq k k' = true := by
    rcases h with rfl | h
    · exact hr
    · exact h
  have hr' : w.eq k' k' = true := hw.trans _ _ _ (hw.symm _ _ he) he
  induction d with
  | nil => rfl
  | cons e d ih =>
    obtain ⟨k0, v0⟩ := e
    have : (k0 = k ∨ w.eq k0 k = true) ↔ (k0 = k' ∨ w.eq k0 k' = true) := by
      constructor
      · rintro (rfl | h)
        · exact .inr he
        · exact .inr (hw.trans _ _ _ h he)
      · rintro (rfl | h)
        · exact .inr (hw.symm _ _ he)
        · exact .inr (hw.trans _ _ _ h (hw.symm _ _ he))
    simp only [find, this, ih]

theorem find_put {w : World K} (hw : Lawful w) (d : List (K × V)) {k k' : K} (v : V) (hr : w.eq k k = true) :
    find w (put w d k v) k' = if k = k' ∨ w.eq k k' = true then some v else find w d k' := by
  induction d with
  | nil => simp only [put, find]
  | cons e d ih =>
    obtain ⟨k0, v0⟩ := e
    simp only [put]
    by_cases h : w.eq k0 k = true
    · rw [if_pos h]
      have : (k0 = k' ∨ w.eq k0 k' = true) ↔ (k = k' ∨ w.eq k k' = true) := by
        constructor
        · rintro (rfl | h')
          · exact .inr (hw.symm _ _ h)
          · exact .inr (hw.trans _ _ _ (hw.symm _ _ h) h')
        · rintro (rfl | h')
          · exact .inr h
          · exact .inr (hw.trans _ _ _ h h')
      simp only [find, this]
      split <;> rfl
    · rw [if_neg h]
      simp only [find, ih]
      by_cases h1 : k0 = k' ∨ w.eq k0 k' = true
      · rw [if_pos h1, if_neg, if_pos h1]
        rintro (rfl | h2)
        · rcases h1 with rfl | h1
          · exact h hr
          · exact h h1
        · rcases h1 with rfl | h1
          · exact h (hw.symm _ _ h2)
          · exact h (hw.trans _ _ _ h1 (hw.symm _ _ h2))
      · rw [if_neg h1, if_neg h1]

/-- After storing a value, exactly the keys that are the same as the key, or equal to it, give the value. -/
theorem shell_set_partial {w : World K} (hw : Lawful w) (s : Shell K V) {k : K} (hr : w.eq k k = true) (v : V) (k' : K) :
    (s.set w k v).get w k' = if k = k' ∨ w.eq k k' = true then some v else s.get w k' := by
  simp only [Shell.set, Shell.get, find_put hw _ _ hr]
  by_cases h : k = k' ∨ w.eq k k' = true
  · simp only [if_pos h]
  · simp only [if_neg h]

/-- Deleting gives `KeyError` exactly for a missing key, and otherwise exactly the equal keys are gone. -/
theorem shell_del_partial {w : World K} (hw : Lawful w) (s : Shell K V) {k : K} (hr : w.eq k k = true) :
    (s.del w k = none ↔ s.get w k = none) ∧
    ∀ s', s.del w k = some s' → s'.len = s.len - 1 ∧ ∀ k', s'.get w k' = if k = k' ∨ w.eq k k' = true then none else s.get w k' := by
  have key : ∀ k', Shell.get w ⟨put w s.muts k none, s.inner, s.len - 1⟩ k' = if k = k' ∨ w.eq k k' = true then none else s.get w k' := by
    intro k'
    simp only [Shell.get, find_put hw _ _ hr]
    by_cases h : k = k' ∨ w.eq k k' = true
    · simp only [if_pos h]
    · simp only [if_neg h]
  simp only [Shell.del]
  rcases hf : find w s.muts k with _ | (_ | v)
  · simp only [Shell.get, hf]
    by_cases hi : (find w s.inner k).isNone = true
    · rw [if_pos hi]
      refine ⟨⟨fun _ => ?_, fun _ => rfl⟩, fun s' h => by cases h⟩
      rwa [Option.isNone_iff_eq_none] at hi
    · rw [if_neg hi]
      refine ⟨⟨fun h => (by cases h), fun h => absurd (by rw [h]; rfl) hi⟩, fun s' h => ?_⟩
      cases h
      exact ⟨rfl, key⟩
  · simp only [Shell.get, hf]
    exact ⟨by simp, fun s' h => by cases h⟩
  · refine ⟨⟨fun h => (by cases h), fun h => ?_⟩, fun s' h => ?_⟩
    · simp only [Shell.get, hf] at h
      cases h
    · cases h; exact ⟨rfl, key⟩

/-- The length goes up exactly if the key was missing. -/
theorem shell_set_len (w : World K) (s : Shell K V) (k : K) (v : V) : (s.set w k v).len = s.len + (if s.get w k = none then 1 else 0) := by
  unfold Shell.set
  cases s.get w k <;> simp

example : ((Shell.set world ⟨[], [(4, 1)], 1⟩ 5 2).get world 4) = some 2 ∧ ((Shell.set world ⟨[], [(4, 1)], 1⟩ 5 2).del world 4).isSome = true := ⟨rfl, rfl⟩

/-- **Disagreement**: a second value for NaN is not seen, and after a deletion no value is. In Python the last value is found. -/
theorem shell_nan : ((Shell.set world (Shell.set world ⟨[], [], 0⟩ 0 "a") 0 "b").get world 0) = some "a" ∧
    (((Shell.set world ⟨[], [(0, "a")], 1⟩ 4 "x").del world 0).map fun s => (s.set world 0 "b").get world 0) = some none := ⟨rfl, rfl⟩

/-! ### Sets -/

omit [DecidableEq K] in
theorem anyEq_iff (w : World K) (x : K) (items : List K) : anyEq w x items = true ↔ ∃ y ∈ items, w.eq x y = true := by
  induction items with
  | nil => simp [anyEq]
  | cons y items ih =>
    simp only [anyEq]
    by_cases h : w.eq x y = true
    · simp [h]
    · rw [if_neg h, ih]; simp [h]

/-- Membership without hashing is that of Python, for keys equal to themselves. -/
theorem set_contains_partial {w : World K} (hw : Lawful w) {items : List K} (hi : ∀ y ∈ items, w.hash y ≠ none) {x : K} (hk : Checked w x)
    (hr : w.eq x x = true) :
    (contains w items x = .error .type ↔ w.hash x = none) ∧ (w.hash x ≠ none → (contains w items x = .ok true ↔ ∃ y ∈ items, Finds w y x)) := by
  unfold contains
  by_cases ht : w.typeHash x = true
  · have hh := (checked_type hk).1 ht
    rw [if_neg (not_not.2 ht)]
    refine ⟨⟨fun h => (by cases h), fun h => absurd h hh⟩, fun _ => ?_⟩
    rw [Except.ok.injEq, anyEq_iff]
    constructor
    · rintro ⟨y, hy, h⟩; exact ⟨y, hy, (finds_refl hw (hi y hy) hh hr).2 (hw.symm _ _ h)⟩
    · rintro ⟨y, hy, h⟩; exact ⟨y, hy, hw.symm _ _ ((finds_refl hw (hi y hy) hh hr).1 h)⟩
  · rw [if_pos ht]
    have hh : w.hash x = none := by by_contra h; exact ht ((checked_type hk).2 h)
    exact ⟨⟨fun _ => hh, fun _ => rfl⟩, fun h => absurd hh h⟩

example : contains world [4, 6] 5 = .ok true ∧ contains world [4, 6] 8 = .ok false := ⟨rfl, rfl⟩

/-- **Disagreement**: a NaN is not found in a set it is in. -/
theorem set_nan_missed : contains world [0, 4] 0 = .ok false ∧ ∃ y ∈ [0, 4], Finds world y 0 := ⟨rfl, 0, by simp, .inl rfl⟩

theorem uniqueFrom_spec {w : World K} (hw : Lawful w) : ∀ (seq acc : List K), (∀ x ∈ seq, Checked w x ∧ w.hash x ≠ none) → (∀ x ∈ acc, w.hash x ≠ none) →
    acc.Pairwise (fun a b => ¬ Finds w a b) →
    ∃ items, uniqueFrom w acc seq = .ok (acc ++ items) ∧ items.Sublist seq ∧ (acc ++ items).Pairwise (fun a b => ¬ Finds w a b) ∧
      ∀ x ∈ seq, ∃ y ∈ acc ++ items, Finds w y x
  | [], acc, _, _, hp => ⟨[], by simp [uniqueFrom], .slnil, by simpa using hp, by simp⟩
  | x :: seq, acc, hs, ha, hp => by
    obtain ⟨hc, hh⟩ := hs x List.mem_cons_self
    have hs' : ∀ y ∈ seq, Checked w y ∧ w.hash y ≠ none := fun y hy => hs y (List.mem_cons_of_mem _ hy)
    simp only [uniqueFrom, if_neg (not_not.2 ((checked_type hc).2 hh))]
    have hin : inList w x acc = true ↔ ∃ y ∈ acc, Finds w y x := by
      simp only [inList, List.any_eq_true, Bool.or_eq_true, decide_eq_true_eq]
      constructor
      · rintro ⟨y, hy, h⟩; exact ⟨y, hy, (finds_iff hw (ha y hy) hh).2 h⟩
      · rintro ⟨y, hy, h⟩; exact ⟨y, hy, (finds_iff hw (ha y hy) hh).1 h⟩
    by_cases hx : inList w x acc = true
    · rw [if_pos hx]
      obtain ⟨items, h1, h2, h3, h4⟩ := uniqueFrom_spec hw seq acc hs' ha hp
      refine ⟨items, h1, h2.cons _, h3, fun y hy => ?_⟩
      rcases List.mem_cons.1 hy with rfl | hy
      · obtain ⟨z, hz, h⟩ := hin.1 hx
        exact ⟨z, List.mem_append_left _ hz, h⟩
      · exact h4 y hy
    · rw [if_neg hx]
      have ha' : ∀ y ∈ acc ++ [x], w.hash y ≠ none := by
        intro y hy
        rcases List.mem_append.1 hy with hy | hy
        · exact ha y hy
        · rw [List.mem_singleton.1 hy]; exact hh
      have hp' : (acc ++ [x]).Pairwise (fun a b => ¬ Finds w a b) := by
        rw [List.pairwise_append]
        refine ⟨hp, List.pairwise_singleton _ _, fun a hya b hb => ?_⟩
        rw [List.mem_singleton.1 hb]
        intro h
        exact hx (hin.2 ⟨a, hya, h⟩)
      obtain ⟨items, h1, h2, h3, h4⟩ := uniqueFrom_spec hw seq (acc ++ [x]) hs' ha' hp'
      refine ⟨x :: items, by rw [h1]; simp, h2.cons_cons _, by simpa using h3, fun y hy => ?_⟩
      rcases List.mem_cons.1 hy with rfl | hy
      · exact ⟨y, by simp, .inl rfl⟩
      · simpa using h4 y hy

/-- Making a set from a sequence keeps of the elements that are the same exactly the first, also of NaN. -/
theorem set_made {w : World K} (hw : Lawful w) (seq : List K) (hs : ∀ x ∈ seq, Checked w x ∧ w.hash x ≠ none) :
    ∃ items, checkUnique w seq = .ok items ∧ IsSetOf w seq items := by
  obtain ⟨items, h1, h2, h3, h4⟩ := uniqueFrom_spec hw seq [] hs (by simp) .nil
  exact ⟨items, by simpa [checkUnique] using h1, h2, by simpa using h3, by simpa using h4⟩

example : checkUnique world [4, 0, 5, 0, 6] = .ok [4, 0, 6] := rfl

end Verif.Keys
