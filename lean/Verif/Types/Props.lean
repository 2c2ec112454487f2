import Verif.Types.Ask

/-! Theorems on symbolic types. -/
namespace Verif.Types

/-! ## What the solver is told -/

/-- Whatever types were asked for, and in whatever order: in all that the solver may believe, the types are as distinct as they are in Python, and
the answer to each question `issubclass` is Python's. -/
theorem told_exact (w : World) (history : List Nat) (i : Interp) (hi : Believes i (repoAfter w history)) (a b : Nat) (ha : a ∈ history)
    (hb : b ∈ history) : (i.const a = i.const b ↔ a = b) ∧ i.fn (i.const a) (i.const b) = w.issub a b :=
  good_exact (good_repoAfter w history) hi ((mem_repoAfter w history a).2 ha) ((mem_repoAfter w history b).2 hb)

/-- Python's own classes, as an interpretation. -/
def standard (w : World) : Interp := { Dom := Nat, const := id, fn := w.issub }

/-- What the solver is told is true of Python's classes; so it is never a contradiction. -/
theorem told_true (w : World) (history : List Nat) : Believes (standard w) (repoAfter w history) := by
  intro f hf
  rcases (good_repoAfter w history).just f hf with ⟨a, _, b, _, hab, rfl⟩ | ⟨a, _, b, _, rfl⟩
  · exact hab
  · rfl

/-- The hypotheses of `told_exact` and `told_true` are met: three classes, one of which cannot be compared. -/
example : ∃ w : World, w.issub 1 0 = .yes ∧ w.issub 0 2 = .exception ∧ Believes (standard w) (repoAfter w [0, 1, 2, 1]) ∧
    (repoAfter w [0, 1, 2, 1]).facts.length = 12 :=
  let w : World := ⟨fun a b => if b = 2 then .exception else if b ≤ a then .yes else .no, fun _ => false, fun _ => []⟩
  ⟨w, by decide, by decide, told_true w _, by decide⟩

/-- Asking for a new type never rules out what was possible: whatever the solver believed of the known types, and of the values of other
variables (elements of `i.Dom`), it may believe still, with a value for the new type. -/
theorem told_conservative (w : World) (history : List Nat) (t : Nat) (i : Interp) (hi : Believes i (repoAfter w history)) :
    ∃ (j : Interp) (into : i.Dom → j.Dom), Believes j (repoAfter w (history ++ [t])) ∧ Function.Injective into ∧
      (∀ a ∈ history, j.const a = into (i.const a)) ∧ ∀ x y, j.fn (into x) (into y) = i.fn x y := by
  classical
  have hg := good_repoAfter w history
  have hk := mem_repoAfter w history
  by_cases ht : t ∈ history
  · refine ⟨i, id, ?_, fun _ _ h => h, fun _ _ => rfl, fun _ _ => rfl⟩
    rw [repoAfter_snoc]
    unfold getType
    rw [if_pos ((hk t).2 ht)]
    exact hi
  · let j : Interp :=
      { Dom := Option i.Dom
        const := fun a => if a = t then none else some (i.const a)
        fn := fun x y =>
          match x, y with
          | some x, some y => i.fn x y
          | none, none => w.issub t t
          | none, some y => if h : ∃ a ∈ history, i.const a = y then w.issub t h.choose else .no
          | some x, none => if h : ∃ a ∈ history, i.const a = x then w.issub h.choose t else .no }
    have hinj : ∀ a ∈ history, ∀ b ∈ history, i.const a = i.const b → a = b :=
      fun a ha b hb h => (told_exact w history i hi a b ha hb).1.1 h
    have hfn : ∀ a b, (a = t ∨ a ∈ history) → (b = t ∨ b ∈ history) → j.fn (j.const a) (j.const b) = w.issub a b := by
      intro a b ha hb
      simp only [j]
      rcases ha with rfl | ha <;> rcases hb with rfl | hb
      · simp
      · have hb' : b ≠ a := by rintro rfl; exact ht hb
        have hex : ∃ c ∈ history, i.const c = i.const b := ⟨b, hb, rfl⟩
        simp only [if_true, hb', if_false]
        rw [dif_pos hex]
        congr 1
        exact hinj _ hex.choose_spec.1 _ hb hex.choose_spec.2
      · have ha' : a ≠ b := by rintro rfl; exact ht ha
        have hex : ∃ c ∈ history, i.const c = i.const a := ⟨a, ha, rfl⟩
        simp only [if_true, ha', if_false]
        rw [dif_pos hex]
        congr 1
        exact hinj _ hex.choose_spec.1 _ ha hex.choose_spec.2
      · have ha' : a ≠ t := by rintro rfl; exact ht ha
        have hb' : b ≠ t := by rintro rfl; exact ht hb
        simp only [ha', hb', if_false]
        exact (told_exact w history i hi a b ha hb).2
    refine ⟨j, some, ?_, fun _ _ h => Option.some.inj h, ?_, fun _ _ => rfl⟩
    · intro f hf
      have hm : ∀ a, a ∈ (repoAfter w (history ++ [t])).known → a = t ∨ a ∈ history := by
        intro a ha
        rw [mem_repoAfter] at ha
        rcases List.mem_append.1 ha with h | h
        · exact .inr h
        · exact .inl (List.mem_singleton.1 h)
      rcases (good_repoAfter w (history ++ [t])).just f hf with ⟨a, ha, b, hb, hab, rfl⟩ | ⟨a, ha, b, hb, rfl⟩
      · show j.const a ≠ j.const b
        rcases hm a ha with rfl | ha' <;> rcases hm b hb with rfl | hb'
        · exact absurd rfl hab
        · have : b ≠ a := fun h => hab h.symm
          simp [j, this]
        · simp [j, hab]
        · have hat : a ≠ t := by rintro rfl; exact ht ha'
          have hbt : b ≠ t := by rintro rfl; exact ht hb'
          simp only [j, hat, hbt, if_false]
          intro h
          exact hab (hinj a ha' b hb' (Option.some.inj h))
      · exact hfn a b (hm a ha) (hm b hb)
    · intro a ha
      have ha' : a ≠ t := by rintro rfl; exact ht ha
      simp [j, ha']

/-! ## Symbolic types -/

/-- A symbolic type is asked any questions, and turns out to be the class `t`. Then `t` is below the cap, and every answer that was given is what
Python answers for `t`; and `TypeError` was raised only if Python raises it, or because the class in question cannot be compared with a class
that `t` is below. -/
theorem answers_true (i : Interp) (w : World) (below : Nat → List Nat) (history : List Nat) (cap : Nat) (var : i.Dom)
    (hc : capped cap var) (qs : List Question) (answers : List (Question × Ans Bool)) (s s' : Sym i) (t : Nat)
    (hs : askAll w below (start w (repoAfter w history) cap var) qs = (answers, s)) (ht : realize w below s = (.ok t, s'))
    (hb : Believes i s'.repo) :
    w.issub t cap = .yes ∧ ∀ qa ∈ answers, (∀ b, qa.2 = .ok b → qa.1.truth w t = .ok b) ∧
      (qa.2 = .typeError → qa.1.truth w t = .typeError ∨ Excused w t qa.1) := by
  have ho : Ok w (start (i := i) w (repoAfter w history) cap var) := ok_start (good_repoAfter w history) hc
  obtain ⟨h1, h2, h3⟩ := askAll_spec (below := below) qs _ ho
  rw [hs] at h1 h2 h3
  obtain ⟨k1, k2, _, k4, _⟩ := realize_spec (below := below) h1
  rw [ht] at k1 k2 k4
  obtain ⟨htk, htv, _⟩ := k4 t rfl
  have hv : var = i.const t := by
    have := h2.var
    rw [htv] at this
    exact this.symm
  have hl : Later w i s s'.repo := ⟨k1.good, hb, k2.known⟩
  refine ⟨?_, fun qa hqa => h3 s'.repo t hl htk hv qa hqa⟩
  have hcap : cap ∈ s'.repo.known := k2.known (h2.known getType_self)
  have := (good_exact k1.good hb htk hcap).2
  rw [← hv] at this
  rw [← this]
  exact hc

/-- A class turns out the same each time it is asked for, whatever was asked before and in between. -/
theorem realized_once (i : Interp) (w : World) (below : Nat → List Nat) (history : List Nat) (cap : Nat) (var : i.Dom) (hc : capped cap var)
    (qs ps : List Question) (s s' s'' : Sym i) (t u : Nat)
    (hs : (askAll w below (start w (repoAfter w history) cap var) qs).2 = s) (ht : realize w below s = (.ok t, s'))
    (hu : realize w below (askAll w below s' ps).2 = (.ok u, s'')) (hb : Believes i s''.repo) : u = t := by
  have ho : Ok w (start (i := i) w (repoAfter w history) cap var) := ok_start (good_repoAfter w history) hc
  have h1 := (askAll_spec (below := below) qs _ ho).1
  rw [hs] at h1
  obtain ⟨k1, k2, _, k4, _⟩ := realize_spec (below := below) h1
  rw [ht] at k1 k2 k4
  obtain ⟨htk, htv, _⟩ := k4 t rfl
  obtain ⟨l1, l2, _⟩ := askAll_spec (below := below) ps _ k1
  obtain ⟨m1, m2, _, m4, _⟩ := realize_spec (below := below) l1
  rw [hu] at m1 m2 m4
  obtain ⟨huk, huv, _⟩ := m4 u rfl
  have hv : i.const u = i.const t := by
    rw [← huv, ← htv, l2.var, k2.var]
  exact (good_exact m1.good hb huk (m2.known (l2.known htk))).1.1 hv

/-- Full statement: every class below the cap can be what a symbolic type turns out to be, whatever is asked of it first.
Proved: if Python's `issubclass` is what the known subclasses say (`iter_types` lists all classes for which it is true), and the cap is not `object`
(for which only two classes are tried). -/
theorem found_partial (w : World) (below : Nat → List Nat) (history : List Nat) (cap t : Nat) (qs : List Question)
    (hbelow : ∀ c x, x ∈ below c ↔ w.issub x c = .yes) (htop : ∀ x, w.issub object x = .yes → x = object) (hcap : cap ≠ object)
    (ht : w.issub t cap = .yes) :
    (realize w below (askAll w below (start (i := standard w) w (repoAfter w history) cap t) qs).2).1 = .ok t := by
  have ho : Ok w (start (i := standard w) w (repoAfter w history) cap t) := ok_start (good_repoAfter w history) ht
  refine realize_finds hbelow (fun _ _ h => h) (askAll_spec (below := below) qs _ ho).1 ?_
  exact askAll_finds htop (fun _ _ => rfl) qs _ ho ⟨rfl, ht, hcap⟩

/-- Classes 3 and 4, with 4 below 3, and `object`. -/
def small : World :=
  ⟨fun a b => if a = b ∨ b = object ∨ (a = 4 ∧ b = 3) then .yes else .no, fun _ => false, fun c => if c = 4 then [3] else [object]⟩

/-- The hypotheses of `answers_true` and `found_partial` are met: class 4, below class 3, is asked whether it is below 4. -/
example : (realize small (fun c => if c = 3 then [3, 4] else [4])
      (askAll small (fun c => if c = 3 then [3, 4] else [4]) (start (i := standard small) small (repoAfter small [3]) 3 (4 : Nat))
        [.subclassOf 4]).2).1 = .ok 4 ∧ capped (i := standard small) 3 (4 : Nat) := by
  refine ⟨?_, rfl⟩
  simp only [askAll, ask, isSubclassOf]
  have h1 : (standard small).fn (start (i := standard small) small (repoAfter small [3]) 3 (4 : Nat)).var ((standard small).const 4) = .yes := rfl
  rw [h1]
  have h2 : small.issub 4 3 = .yes := by decide
  have h3 : (4 : Nat) ≠ (start (i := standard small) small (repoAfter small [3]) 3 (4 : Nat)).cap := by decide
  simp only [lowerCap]
  rw [if_neg h3]
  have h4 : small.issub 4 (start (i := standard small) small (repoAfter small [3]) 3 (4 : Nat)).cap = .yes := h2
  rw [h4]
  simp only [if_true, realize, start]
  simp [object, tryTypes, standard]

/-- A class 3, its subclass 4 with a `register` method (an abstract base class), and another subclass 5 of class 3 that is registered with 4. -/
def registered : World :=
  ⟨fun a b => if a = b ∨ b = object ∨ (b = 3 ∧ (a = 4 ∨ a = 5)) ∨ (a = 5 ∧ b = 4) then .yes else .no, fun _ => false,
    fun c => if c = 4 ∨ c = 5 then [3] else [object]⟩

/-- The classes that `iter_types` lists for them. -/
def registeredBelow (c : Nat) : List Nat := if c = 3 then [3, 4, 5] else [c]

/-- Disagreement: a symbolic type below class 3 can turn out to be class 5; but not after it was asked (with the answer yes) whether it is below
class 4, although it is: the cap was lowered, and class 5 is no subclass of it that is known. So the path is given up. -/
theorem lowering_loses :
    (realize registered registeredBelow (start (i := standard registered) registered {} 3 (5 : Nat))).1 = .ok 5 ∧
    (askAll registered registeredBelow (start (i := standard registered) registered {} 3 (5 : Nat)) [.subclassOf 4]).1.map (·.2) = [.ok true] ∧
    pyIssub registered 5 4 = .ok true ∧
    (realize registered registeredBelow
      (askAll registered registeredBelow (start (i := standard registered) registered {} 3 (5 : Nat)) [.subclassOf 4]).2).1 = .ignored := by
  have e1 : (standard registered).fn (5 : Nat) ((standard registered).const 4) = .yes := rfl
  have e2 : registered.issub 4 3 = .yes := by decide
  refine ⟨?_, ?_, by decide, ?_⟩
  · simp [realize, start, tryTypes, object, registeredBelow, standard]
  · simp [askAll, ask, isSubclassOf, start, e1, lowerCap, e2]
  · simp [askAll, ask, isSubclassOf, start, e1, lowerCap, e2, realize, tryTypes, object, registeredBelow]
    simp [standard]

/-! ## Choosing a class -/

/-- The loop that lists subclasses ends, and lists each class that is below the given one and may be used, and no other. -/
theorem lists_subclasses (w : World) (children : Nat → List Nat) (base : Nat) (includeAbstract : Bool) (h : Acyclic children) :
    ∃ pairs N, (∀ n, N ≤ n → iterTypes w children n base includeAbstract = some pairs) ∧
      ∀ t, t ∈ pairs.map (·.1) ↔ Below children base t ∧ (includeAbstract = true ∨ w.abstract t = false) := by
  obtain ⟨rank, hr⟩ := h
  let N := visits children rank hr base + 1
  have hN : ∀ n, N ≤ n → ∃ out, visit children n [base] = some out := fun n hn => visit_ends hr n [base] (by simp; omega)
  have hmono : ∀ n q out, visit children n q = some out → visit children (n + 1) q = some out := by
    intro n
    induction n with
    | zero => intro q out h; simp [visit] at h
    | succ n ih =>
      intro q out h
      cases q with
      | nil => exact h
      | cons c q =>
        rw [visit] at h ⊢
        cases hv : visit children n (q ++ children c) with
        | none => rw [hv] at h; simp at h
        | some o => rw [hv] at h; rw [ih _ _ hv]; exact h
  obtain ⟨out, ho⟩ := hN N le_rfl
  have hsame : ∀ n, N ≤ n → visit children n [base] = some out := by
    intro n hn
    induction n, hn using Nat.le_induction with
    | base => exact ho
    | succ n _ ih => exact hmono n _ _ ih
  refine ⟨_, N, fun n hn => by rw [iterTypes, hsame n hn]; rfl, ?_⟩
  intro t
  rw [map_fst_bias, map_fst_withProbabilities, List.mem_filter, mem_visit _ _ _ ho]
  simp

theorem iterTypes_proper {w : World} {children : Nat → List Nat} {n base : Nat} {ia : Bool} {pairs : List (Nat × ℚ)}
    (h : iterTypes w children n base ia = some pairs) : pairs = [] ∨ Proper pairs := by
  rw [iterTypes] at h
  cases hv : visit children n [base] with
  | none => rw [hv] at h; simp at h
  | some out =>
    rw [hv] at h
    simp only [Option.map_some, Option.some.injEq] at h
    subst h
    by_cases he : (out.filter fun t => ia || !w.abstract t) = []
    · rw [he]; exact .inl rfl
    · exact .inr (proper_bias _ (proper_with _ _ 0 (by simp) he))

/-- Which class is chosen for an argument that is annotated with a class: any concrete class below it can be chosen, and no other; there is none
exactly if there is no such class; and there is never an internal error, however the forks go. -/
theorem any_subclass (w : World) (children : Nat → List Nat) (base n : Nat) (h : Acyclic children) (pairs : List (Nat × ℚ))
    (hp : iterTypes w children n base false = some pairs) :
    (∀ t, (∃ forks, choose pairs forks = .type t) ↔ Below children base t ∧ w.abstract t = false) ∧
    (∀ forks, choose pairs forks = .none ↔ ∀ t, Below children base t → w.abstract t = true) ∧
    (∀ forks, choose pairs forks ≠ .internal) := by
  obtain ⟨pairs', N, hN, hmem⟩ := lists_subclasses w children base false h
  have hmem2 : ∀ t, t ∈ pairs.map (·.1) ↔ Below children base t ∧ w.abstract t = false := by
    intro t
    rw [iterTypes] at hp
    cases hv : visit children n [base] with
    | none => rw [hv] at hp; simp at hp
    | some out =>
      rw [hv] at hp
      simp only [Option.map_some, Option.some.injEq] at hp
      subst hp
      rw [map_fst_bias, map_fst_withProbabilities, List.mem_filter, mem_visit _ _ _ hv]
      simp
  rcases iterTypes_proper hp with rfl | hprop
  · refine ⟨?_, ?_, ?_⟩
    · intro t
      rw [← hmem2]
      simp [choose]
    · intro forks
      simp only [choose, List.isEmpty_nil, if_true, true_iff]
      intro t ht
      cases ha : w.abstract t with
      | true => rfl
      | false => exact absurd ((hmem2 t).2 ⟨ht, ha⟩) (by simp)
    · intro forks; simp [choose]
  · have hne : pairs.isEmpty = false := by cases hprop <;> rfl
    have hc : ∀ forks, choose pairs forks = chooseLoop pairs forks := fun forks => by rw [choose, hne]; rfl
    refine ⟨?_, ?_, ?_⟩
    · intro t
      rw [← hmem2]
      constructor
      · rintro ⟨forks, hf⟩
        rw [hc] at hf
        exact chooseLoop_mem _ _ _ hf
      · intro ht
        obtain ⟨forks, hf⟩ := chooseLoop_any hprop t ht
        exact ⟨forks, by rw [hc, hf]⟩
    · intro forks
      obtain ⟨t, ht⟩ := chooseLoop_proper hprop forks
      rw [hc, ht]
      constructor
      · intro h; simp at h
      · intro h
        have hm := (hmem2 t).1 (chooseLoop_mem _ _ _ ht)
        rw [h t hm.1] at hm
        simp at hm
    · intro forks
      obtain ⟨t, ht⟩ := chooseLoop_proper hprop forks
      rw [hc, ht]
      simp

/-- A class with two subclasses, which have a common subclass; the class itself is abstract. -/
def diamond : Nat → List Nat := fun c => if c = 3 then [4, 5] else if c = 4 ∨ c = 5 then [6] else []
def diamondWorld : World := ⟨fun _ _ => .yes, fun c => c == 3, fun _ => []⟩

/-- The hypotheses of `any_subclass` are met by a diamond; the class at its end is listed twice. -/
example : Acyclic diamond ∧ (iterTypes diamondWorld diamond 9 3 false).map (·.map (·.1)) = some [4, 5, 6, 6] ∧
    (iterTypes diamondWorld diamond 9 3 false).map (choose · [false, true]) = some (.type 5) := by
  refine ⟨⟨fun c => 6 - c, ?_⟩, by decide +kernel, by decide +kernel⟩
  intro c d hd
  show 6 - d < 6 - c
  simp only [diamond] at hd
  split at hd
  · simp at hd; omega
  · split at hd
    · simp at hd; omega
    · simp at hd

/-- The probabilities of the forks are such that each of `n` classes in a list is chosen with probability `1/n`. -/
theorem uniform (types : List Nat) : chances (withProbabilities types.length 0 types) = List.replicate types.length (1 / (types.length : ℚ)) :=
  chances_from _ _ 0 (by simp)

example : chances (withProbabilities 3 0 [7, 8, 9]) = [1/3, 1/3, 1/3] := by decide +kernel

/-- With the extra weight for the base class: it is chosen with probability `(1/n + 3)/4`, and the others share the rest equally. -/
theorem biased (base : Nat) (types : List Nat) : ∃ rest, chances (bias base (withProbabilities (types.length + 1) 0 (base :: types))) =
    (1 / ((types.length : ℚ) + 1) + 3) / 4 :: List.replicate types.length rest := by
  refine ⟨(1 - (1 / ((types.length : ℚ) + 1) + 3) / 4) * (1 / (types.length : ℚ)), ?_⟩
  · rw [withProbabilities, bias, if_pos rfl, chances, chances_from _ _ 1 (by omega), List.map_replicate]
    simp

/-- The map of subclasses: a class is below another if it and all classes in between are known and may be used. -/
theorem subclass_map (w : World) (found : List (Nat × Bool)) (base t : Nat) :
    t ∈ subclassMap w found base ↔ (base, true) ∈ found ∧ (t, true) ∈ found ∧ base ∈ w.bases t := by
  have hc : ∀ x, x ∈ ((found.filter (·.2)).map (·.1)).eraseDups ↔ (x, true) ∈ found := by
    intro x
    rw [List.mem_eraseDups, List.mem_map]
    constructor
    · rintro ⟨⟨y, b⟩, hy, rfl⟩
      rw [List.mem_filter] at hy
      obtain ⟨h1, h2⟩ := hy
      simp only at h2
      subst h2
      exact h1
    · intro h; exact ⟨(x, true), List.mem_filter.2 ⟨h, rfl⟩, rfl⟩
  simp only [subclassMap]
  by_cases hb : base ∈ ((found.filter (·.2)).map (·.1)).eraseDups
  · rw [if_pos hb, List.mem_filter, hc]
    simp [(hc base).1 hb]
  · rw [if_neg hb]
    simp only [List.not_mem_nil, false_iff]
    intro h
    exact hb ((hc base).2 h.1)

/-- Disagreement: a class whose only base may not be used (it has `__reduce__`, say) is never chosen for an argument, although it is a subclass of
the annotated class and may be used itself. -/
theorem hidden_by_base : ∃ (w : World) (found : List (Nat × Bool)), (5, true) ∈ found ∧ 4 ∈ w.bases 5 ∧ 3 ∈ w.bases 4 ∧
    (iterTypes w (subclassMap w found) 9 3 false).map (·.map (·.1)) = some [3] :=
  ⟨⟨fun _ _ => .yes, fun _ => false, fun c => if c = 5 then [4] else if c = 4 then [3] else []⟩, [(3, true), (4, false), (5, true)],
    by decide, by decide, by decide, by decide +kernel⟩

end Verif.Types
