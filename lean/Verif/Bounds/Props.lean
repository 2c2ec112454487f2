import Verif.Bounds.Model
import Mathlib.Data.Option.Basic
import Mathlib.Tactic.Tauto
/-
Theorems: bounds of integers, shortcuts by bounds, and constraints added by decisions are right for all histories of operations.
-/
namespace Verif.Bounds

/-- The invariant: state and reference have the same integers and comparisons, and given the constraints all bounds and all known results
are right. -/
structure Good (s : State) (r : Ref) : Prop where
  exprs : r.exprs = s.objs.map (·.expr)
  vars : s.vars = r.wanted.length
  count : s.slots.length = r.comps.length
  known : ∀ (k : Nat) (b : Bool), s.slots[k]? = some (Slot.concrete b) → ∃ (e : Expr) (cmp : Cmp) (c : Int), r.comps[k]? = some (e, cmp, c) ∧ ∀ v, s.Holds v → cmp.holds (e.eval v) c = b
  pending : ∀ (k i : Nat) (e : Expr) (cmp : Cmp) (c : Int), s.slots[k]? = some (Slot.pending i e cmp c) → r.comps[k]? = some (e, cmp, c) ∧ ∃ o : Obj, s.objs[i]? = some o ∧ o.expr = e
  answered : ∀ a ∈ s.answers, a.1 < r.comps.length
  bounds : ∀ v, s.Holds v → ∀ o ∈ s.objs, within o.lo o.hi (o.expr.eval v)
  path : ∀ v, s.Holds v ↔ r.Wanted v ∧ ∀ a ∈ s.answers, r.Right v a

theorem holds_append {l m : List Atom} {v : Val} : (∀ a ∈ l ++ m, a.holds v) ↔ (∀ a ∈ l, a.holds v) ∧ ∀ a ∈ m, a.holds v := by
  simp only [List.mem_append, or_imp, forall_and]

theorem initAtoms_iff (o : Obj) (v : Val) : (∀ a ∈ initAtoms o, a.holds v) ↔ within o.lo o.hi (o.expr.eval v) := by
  unfold initAtoms within
  rw [holds_append]
  cases o.lo <;> cases o.hi <;> simp [Atom.holds]

theorem within_neg {lo hi : Option Int} {x : Int} (h : within lo hi x) : within (hi.map (- ·)) (lo.map (- ·)) (-x) := by
  constructor
  · intro m hm
    cases hi with
    | none => cases hm
    | some a => have := h.2 a rfl; simp at hm; omega
  · intro m hm
    cases lo with
    | none => cases hm
    | some a => have := h.1 a rfl; simp at hm; omega

theorem eval_neg (v : Val) (e : Expr) : (⟨e.var, !e.negative⟩ : Expr).eval v = -(e.eval v) := by
  unfold Expr.eval
  cases e.negative <;> simp

theorem compare_concrete {i : Nat} {o : Obj} {c : Int} {cmp : Cmp} {b : Bool} (h : compare i o c cmp = .concrete b) {x : Int}
    (hw : within o.lo o.hi x) : cmp.holds x c = b := by
  obtain ⟨h1, h2⟩ := hw
  cases cmp <;> simp only [compare] at h <;> split at h
  · injection h with h
    rename_i hlo
    obtain ⟨m, hm, hc⟩ := Option.any_eq_true _ _ |>.1 hlo
    have := h1 m hm
    simp at hc
    subst h; simp [Cmp.holds]; omega
  · split at h
    · injection h with h
      rename_i hlo
      obtain ⟨m, hm, hc⟩ := Option.any_eq_true _ _ |>.1 hlo
      have := h2 m hm
      simp at hc
      subst h; simp [Cmp.holds]; omega
    · cases h
  · injection h with h
    rename_i hlo
    obtain ⟨m, hm, hc⟩ := Option.any_eq_true _ _ |>.1 hlo
    have := h2 m hm
    simp at hc
    subst h; simp [Cmp.holds]; omega
  · split at h
    · injection h with h
      rename_i hlo
      obtain ⟨m, hm, hc⟩ := Option.any_eq_true _ _ |>.1 hlo
      have := h1 m hm
      simp at hc
      subst h; simp [Cmp.holds]; omega
    · cases h

theorem compare_pending {i : Nat} {o : Obj} {c : Int} {cmp : Cmp} {i' : Nat} {e : Expr} {cmp' : Cmp} {c' : Int}
    (h : compare i o c cmp = .pending i' e cmp' c') : i' = i ∧ e = o.expr ∧ cmp' = cmp ∧ c' = c := by
  cases cmp <;> simp only [compare] at h <;> split at h <;> (try split at h) <;> cases h <;> exact ⟨rfl, rfl, rfl, rfl⟩

theorem intersect_ok (o : Obj) (nl nh : Option Int) (v : Val) (h : within o.lo o.hi (o.expr.eval v)) (hn : within nl nh (o.expr.eval v)) :
    (intersect o nl nh).1.expr = o.expr ∧ within (intersect o nl nh).1.lo (intersect o nl nh).1.hi (o.expr.eval v) ∧
    ∀ a ∈ (intersect o nl nh).2, a.holds v := by
  obtain ⟨h1, h2⟩ := h
  obtain ⟨h3, h4⟩ := hn
  unfold intersect
  cases nl with
  | none =>
    cases nh with
    | none => exact ⟨rfl, ⟨h1, h2⟩, by simp⟩
    | some m =>
      have hm := h4 m rfl
      dsimp only
      split
      · exact ⟨rfl, ⟨h1, by simpa using hm⟩, by simpa [Atom.holds] using hm⟩
      · exact ⟨rfl, ⟨h1, h2⟩, by simp⟩
  | some l =>
    have hl := h3 l rfl
    cases nh with
    | none =>
      dsimp only
      split
      · exact ⟨rfl, ⟨by simpa using hl, h2⟩, by simpa [Atom.holds] using hl⟩
      · exact ⟨rfl, ⟨h1, h2⟩, by simp⟩
    | some m =>
      have hm := h4 m rfl
      dsimp only
      by_cases hc : o.lo.all (l > ·) = true
      · rw [if_pos hc]
        dsimp only
        split
        · exact ⟨rfl, ⟨by simpa using hl, by simpa using hm⟩, by simp [Atom.holds, hl, hm]⟩
        · exact ⟨rfl, ⟨by simpa using hl, h2⟩, by simp [Atom.holds, hl]⟩
      · rw [if_neg hc]
        dsimp only
        split
        · exact ⟨rfl, ⟨h1, by simpa using hm⟩, by simp [Atom.holds, hm]⟩
        · exact ⟨rfl, ⟨h1, h2⟩, by simp⟩

theorem intersect_expr (o : Obj) (nl nh : Option Int) : (intersect o nl nh).1.expr = o.expr := by
  unfold intersect
  cases nl <;> cases nh <;> dsimp only <;> (repeat' split) <;> rfl

theorem trigger_expr (o : Obj) (cmp : Cmp) (c : Int) (b : Bool) : (trigger o cmp c b).1.expr = o.expr := by
  unfold trigger
  cases cmp <;> cases b <;> exact intersect_expr _ _ _

theorem trigger_ok (o : Obj) (cmp : Cmp) (c : Int) (b : Bool) (v : Val) (h : within o.lo o.hi (o.expr.eval v))
    (hb : cmp.holds (o.expr.eval v) c = b) :
    within (trigger o cmp c b).1.lo (trigger o cmp c b).1.hi (o.expr.eval v) ∧ ∀ a ∈ (trigger o cmp c b).2, a.holds v := by
  unfold trigger
  cases cmp <;> cases b <;> simp only [Cmp.holds, decide_eq_true_eq, decide_eq_false_iff_not] at hb <;>
    exact (intersect_ok o _ _ v h ⟨by simp; try omega, by simp; try omega⟩).2

theorem step_good {s : State} {r : Ref} (h : Good s r) (op : Op) : Good (step s op) (r.step op) := by
  cases op with
  | make lo hi =>
    have hsub : ∀ v, (step s (.make lo hi)).Holds v ↔ s.Holds v ∧ within lo hi (v s.vars) := by
      intro v
      have := initAtoms_iff ⟨⟨s.vars, false⟩, lo, hi⟩ v
      simp only [State.Holds, step]
      rw [holds_append, this]
      simp [Expr.eval]
    have hwant : ∀ v, (r.step (.make lo hi)).Wanted v ↔ r.Wanted v ∧ within lo hi (v s.vars) := by
      intro v
      rw [h.vars]
      simp only [Ref.Wanted, Ref.step]
      constructor
      · intro hw
        refine ⟨fun n l u hn => hw n l u ?_, hw _ lo hi (by simp)⟩
        rw [List.getElem?_append_left (List.getElem?_eq_some_iff.1 hn).1]
        exact hn
      · rintro ⟨hw, hl⟩ n l u hn
        rcases Nat.lt_trichotomy n r.wanted.length with hlt | heq | hgt
        · rw [List.getElem?_append_left hlt] at hn
          exact hw n l u hn
        · subst heq
          simp at hn
          obtain ⟨rfl, rfl⟩ := hn
          exact hl
        · rw [List.getElem?_eq_none (by simp; omega)] at hn
          cases hn
    refine ⟨?_, ?_, h.count, ?_, ?_, h.answered, ?_, ?_⟩
    · simp [Ref.step, step, h.exprs, h.vars]
    · simp [Ref.step, step, h.vars]
    · intro k b hk
      obtain ⟨e, cmp, c, h1, h2⟩ := h.known k b hk
      exact ⟨e, cmp, c, h1, fun v hv => h2 v ((hsub v).1 hv).1⟩
    · intro k i e cmp c hk
      obtain ⟨h1, o, h2, h3⟩ := h.pending k i e cmp c hk
      refine ⟨h1, o, ?_, h3⟩
      simp only [step]
      rw [List.getElem?_append_left (List.getElem?_eq_some_iff.1 h2).1]
      exact h2
    · intro v hv o ho
      obtain ⟨h1, h2⟩ := (hsub v).1 hv
      simp only [step, List.mem_append, List.mem_singleton] at ho
      rcases ho with ho | rfl
      · exact h.bounds v h1 o ho
      · simpa [Expr.eval] using h2
    · intro v
      rw [hsub, hwant, h.path v]
      show _ ↔ (_ ∧ _) ∧ ∀ a ∈ s.answers, r.Right v a
      tauto
  | neg i =>
    cases ho : s.objs[i]? with
    | none =>
      have hr : r.exprs[i]? = none := by rw [h.exprs, List.getElem?_map, ho]; rfl
      simpa only [step, Ref.step, ho, hr] using h
    | some o =>
      have hr : r.exprs[i]? = some o.expr := by rw [h.exprs, List.getElem?_map, ho]; rfl
      have hmem := List.mem_of_getElem? ho
      have hsub : ∀ v, (step s (.neg i)).Holds v ↔ s.Holds v := by
        intro v
        simp only [State.Holds, step, ho]
        rw [holds_append, initAtoms_iff]
        refine ⟨fun h => h.1, fun hv => ⟨hv, ?_⟩⟩
        dsimp only
        rw [eval_neg]
        exact within_neg (h.bounds v hv o hmem)
      refine ⟨?_, ?_, ?_, ?_, ?_, ?_, ?_, ?_⟩
      · simp [Ref.step, step, h.exprs, ho]
      · simp [Ref.step, step, h.vars, ho, hr]
      · simpa [Ref.step, step, ho, hr] using h.count
      · intro k b hk
        simp only [step, ho] at hk
        obtain ⟨e, cmp, c, h1, h2⟩ := h.known k b hk
        exact ⟨e, cmp, c, by simpa only [Ref.step, hr] using h1, fun v hv => h2 v ((hsub v).1 hv)⟩
      · intro k i' e cmp c hk
        simp only [step, ho] at hk
        obtain ⟨h1, o', h2, h3⟩ := h.pending k i' e cmp c hk
        refine ⟨by simpa only [Ref.step, hr] using h1, o', ?_, h3⟩
        simp only [step, ho]
        rw [List.getElem?_append_left (List.getElem?_eq_some_iff.1 h2).1]
        exact h2
      · intro a ha
        simp only [step, ho] at ha
        have := h.answered a ha
        simpa only [Ref.step, hr] using this
      · intro v hv o' ho'
        have h1 := (hsub v).1 hv
        simp only [step, ho, List.mem_append, List.mem_singleton] at ho'
        rcases ho' with ho' | rfl
        · exact h.bounds v h1 o' ho'
        · dsimp only
          rw [eval_neg]
          exact within_neg (h.bounds v h1 o hmem)
      · intro v
        rw [hsub, h.path v]
        simp only [step, ho, Ref.step, hr]
        exact Iff.rfl
  | compare i cmp c =>
    cases ho : s.objs[i]? with
    | none =>
      have hr : r.exprs[i]? = none := by rw [h.exprs, List.getElem?_map, ho]; rfl
      simpa only [step, Ref.step, ho, hr] using h
    | some o =>
      have hr : r.exprs[i]? = some o.expr := by rw [h.exprs, List.getElem?_map, ho]; rfl
      have hmem := List.mem_of_getElem? ho
      have hsub : ∀ v, (step s (.compare i cmp c)).Holds v ↔ s.Holds v := by
        intro v
        simp only [State.Holds, step, ho]
      have hkeep : ∀ (k : Nat) (x : Expr × Cmp × Int), r.comps[k]? = some x → (r.step (.compare i cmp c)).comps[k]? = some x := by
        intro k x hk
        simp only [Ref.step, hr]
        rw [List.getElem?_append_left (List.getElem?_eq_some_iff.1 hk).1]
        exact hk
      have hnew : (r.step (.compare i cmp c)).comps[s.slots.length]? = some (o.expr, cmp, c) := by
        simp only [Ref.step, hr, h.count]
        simp
      have hslot : ∀ (k : Nat) (x : Slot), (step s (.compare i cmp c)).slots[k]? = some x → s.slots[k]? = some x ∨ (k = s.slots.length ∧ x = compare i o c cmp) := by
        intro k x hk
        simp only [step, ho] at hk
        rcases Nat.lt_trichotomy k s.slots.length with hlt | heq | hgt
        · rw [List.getElem?_append_left hlt] at hk
          exact Or.inl hk
        · subst heq
          simp at hk
          exact Or.inr ⟨rfl, hk.symm⟩
        · rw [List.getElem?_eq_none (by simp; omega)] at hk
          cases hk
      refine ⟨?_, ?_, ?_, ?_, ?_, ?_, ?_, ?_⟩
      · simp [Ref.step, step, h.exprs, ho]
      · simp [Ref.step, step, h.vars, ho, hr]
      · simp [Ref.step, step, ho, hr, h.count]
      · intro k b hk
        rcases hslot k _ hk with hk | ⟨rfl, hq⟩
        · obtain ⟨e, cmp', c', h1, h2⟩ := h.known k b hk
          exact ⟨e, cmp', c', hkeep _ _ h1, fun v hv => h2 v ((hsub v).1 hv)⟩
        · exact ⟨_, _, _, hnew, fun v hv => compare_concrete hq.symm (h.bounds v ((hsub v).1 hv) o hmem)⟩
      · intro k i' e cmp' c' hk
        have hobj : (step s (.compare i cmp c)).objs = s.objs := by simp only [step, ho]
        rw [hobj]
        rcases hslot k _ hk with hk | ⟨rfl, hq⟩
        · obtain ⟨h1, o', h2, h3⟩ := h.pending k i' e cmp' c' hk
          exact ⟨hkeep _ _ h1, o', h2, h3⟩
        · obtain ⟨rfl, rfl, rfl, rfl⟩ := compare_pending hq.symm
          exact ⟨hnew, o, ho, rfl⟩
      · intro a ha
        simp only [step, ho] at ha
        have := h.answered a ha
        simp only [Ref.step, hr, List.length_append, List.length_singleton]
        omega
      · intro v hv o' ho'
        simp only [step, ho] at ho'
        exact h.bounds v ((hsub v).1 hv) o' ho'
      · intro v
        rw [hsub, h.path v]
        have hans : (step s (.compare i cmp c)).answers = s.answers := by simp only [step, ho]
        have hwant : (r.step (.compare i cmp c)).Wanted v ↔ r.Wanted v := by simp only [Ref.step, hr]; exact Iff.rfl
        rw [hans, hwant]
        constructor
        · rintro ⟨h1, h2⟩
          refine ⟨h1, fun a ha => ?_⟩
          obtain ⟨e, cmp', c', h3, h4⟩ := h2 a ha
          exact ⟨e, cmp', c', hkeep _ _ h3, h4⟩
        · rintro ⟨h1, h2⟩
          have hv : ∀ a ∈ s.answers, a.1 < r.comps.length → r.Right v a := by
            intro a ha hlt
            obtain ⟨e, cmp', c', h3, h4⟩ := h2 a ha
            refine ⟨e, cmp', c', ?_, h4⟩
            simp only [Ref.step, hr] at h3
            rwa [List.getElem?_append_left hlt] at h3
          exact ⟨h1, fun a ha => hv a ha (h.answered a ha)⟩
  | decide k choice =>
    show Good (step s (.decide k choice)) r
    cases hk : s.slots[k]? with
    | none => simpa only [step, hk] using h
    | some x =>
      have hlt : k < r.comps.length := by rw [← h.count]; exact (List.getElem?_eq_some_iff.1 hk).1
      cases x with
      | concrete b =>
        obtain ⟨e, cmp, c, h1, h2⟩ := h.known k b hk
        have hsub : ∀ v, (step s (.decide k choice)).Holds v ↔ s.Holds v := by
          intro v
          simp only [State.Holds, step, hk]
        refine ⟨?_, ?_, ?_, ?_, ?_, ?_, ?_, ?_⟩
        · simpa only [step, hk] using h.exprs
        · simpa only [step, hk] using h.vars
        · simpa only [step, hk] using h.count
        · intro k' b' hk'
          simp only [step, hk] at hk'
          obtain ⟨e, cmp, c, h1, h2⟩ := h.known k' b' hk'
          exact ⟨e, cmp, c, h1, fun v hv => h2 v ((hsub v).1 hv)⟩
        · intro k' i e cmp c hk'
          simp only [step, hk] at hk'
          obtain ⟨h1, o', h2, h3⟩ := h.pending k' i e cmp c hk'
          exact ⟨h1, o', by simpa only [step, hk] using h2, h3⟩
        · intro a ha
          simp only [step, hk, List.mem_append, List.mem_singleton] at ha
          rcases ha with ha | rfl
          · exact h.answered a ha
          · exact hlt
        · intro v hv o' ho'
          simp only [step, hk] at ho'
          exact h.bounds v ((hsub v).1 hv) o' ho'
        · intro v
          rw [hsub]
          have hans : (step s (.decide k choice)).answers = s.answers ++ [(k, b)] := by simp only [step, hk]
          rw [hans]
          constructor
          · intro hv
            obtain ⟨h3, h4⟩ := (h.path v).1 hv
            refine ⟨h3, fun a ha => ?_⟩
            rw [List.mem_append, List.mem_singleton] at ha
            rcases ha with ha | rfl
            · exact h4 a ha
            · exact ⟨e, cmp, c, h1, h2 v hv⟩
          · rintro ⟨h3, h4⟩
            exact (h.path v).2 ⟨h3, fun a ha => h4 a (List.mem_append_left _ ha)⟩
      | pending i e cmp c =>
        obtain ⟨h1, o, ho, he⟩ := h.pending k i e cmp c hk
        have hmem := List.mem_of_getElem? ho
        have hi : i < s.objs.length := (List.getElem?_eq_some_iff.1 ho).1
        have hsub : ∀ v, (step s (.decide k choice)).Holds v ↔ s.Holds v ∧ cmp.holds (e.eval v) c = choice := by
          intro v
          simp only [State.Holds, step, hk, ho]
          rw [holds_append, holds_append]
          constructor
          · rintro ⟨⟨h3, h4⟩, _⟩
            exact ⟨h3, h4 _ (List.mem_singleton.2 rfl)⟩
          · rintro ⟨h3, h4⟩
            refine ⟨⟨h3, by simpa [Atom.holds] using h4⟩, ?_⟩
            exact (trigger_ok o cmp c choice v (h.bounds v h3 o hmem) (by rw [he]; exact h4)).2
        have hobjs : (step s (.decide k choice)).objs = s.objs.set i (trigger o cmp c choice).1 := by simp only [step, hk, ho]
        refine ⟨?_, ?_, ?_, ?_, ?_, ?_, ?_, ?_⟩
        · rw [hobjs, List.map_set, trigger_expr, h.exprs]
          symm
          apply List.ext_getElem?
          intro n
          rw [List.getElem?_set]
          split
          · rename_i hn
            subst hn
            rw [if_pos (by simpa using hi), List.getElem?_map, ho]; rfl
          · rfl
        · simpa only [step, hk, ho] using h.vars
        · simpa only [step, hk, ho] using h.count
        · intro k' b' hk'
          simp only [step, hk, ho] at hk'
          obtain ⟨e, cmp, c, h1, h2⟩ := h.known k' b' hk'
          exact ⟨e, cmp, c, h1, fun v hv => h2 v ((hsub v).1 hv).1⟩
        · intro k' i' e' cmp' c' hk'
          simp only [step, hk, ho] at hk'
          obtain ⟨h1, o', h2, h3⟩ := h.pending k' i' e' cmp' c' hk'
          refine ⟨h1, ?_⟩
          rw [hobjs, List.getElem?_set]
          split
          · rename_i hn
            subst hn
            refine ⟨_, rfl, ?_⟩
            rw [trigger_expr]
            rw [ho] at h2
            cases h2
            exact h3
          · exact ⟨o', h2, h3⟩
        · intro a ha
          simp only [step, hk, ho, List.mem_append, List.mem_singleton] at ha
          rcases ha with ha | rfl
          · exact h.answered a ha
          · exact hlt
        · intro v hv o' ho'
          obtain ⟨h3, h4⟩ := (hsub v).1 hv
          rw [hobjs] at ho'
          rcases List.mem_or_eq_of_mem_set ho' with ho' | rfl
          · exact h.bounds v h3 o' ho'
          · rw [trigger_expr]
            exact (trigger_ok o cmp c choice v (h.bounds v h3 o hmem) (by rw [he]; exact h4)).1
        · intro v
          have hans : (step s (.decide k choice)).answers = s.answers ++ [(k, choice)] := by simp only [step, hk, ho]
          rw [hsub, hans, h.path v]
          constructor
          · rintro ⟨⟨h3, h4⟩, h5⟩
            refine ⟨h3, fun a ha => ?_⟩
            rw [List.mem_append, List.mem_singleton] at ha
            rcases ha with ha | rfl
            · exact h4 a ha
            · exact ⟨e, cmp, c, h1, h5⟩
          · rintro ⟨h3, h4⟩
            refine ⟨⟨h3, fun a ha => h4 a (List.mem_append_left _ ha)⟩, ?_⟩
            obtain ⟨e', cmp', c', h5, h6⟩ := h4 (k, choice) (by simp)
            rw [h1] at h5
            cases h5
            exact h6

theorem run_good (ops : List Op) : Good (run ops) (Ref.run ops) := by
  have h : ∀ (ops : List Op) s r, Good s r → Good (ops.foldl step s) (ops.foldl Ref.step r) := by
    intro ops
    induction ops with
    | nil => intro s r h; exact h
    | cons op l ih => intro s r h; exact ih _ _ (step_good h op)
  refine h ops _ _ ⟨rfl, rfl, rfl, ?_, ?_, ?_, ?_, ?_⟩
  · intro k b hk; simp at hk
  · intro k i e cmp c hk; simp at hk
  · intro a ha; simp at ha
  · intro v _ o ho; simp at ho
  · intro v; simp [State.Holds, Ref.Wanted]

/-! ### C240 -/

/-- For every history of making, negating, comparing and deciding: the constraints of the path hold for exactly those integers that have the
wanted limits and for which all answers that the program got are true. Bounds neither exclude integers that would give the same answers nor
give an answer that is not true. -/
theorem path_exact (ops : List Op) (v : Val) :
    (run ops).Holds v ↔ (Ref.run ops).Wanted v ∧ ∀ a ∈ (run ops).answers, (Ref.run ops).Right v a := (run_good ops).path v

/-- At all times the bounds of all integers are right for all integers that the constraints leave. -/
theorem bounds_right (ops : List Op) (v : Val) (h : (run ops).Holds v) :
    ∀ o ∈ (run ops).objs, within o.lo o.hi (o.expr.eval v) := (run_good ops).bounds v h

/-- The objects stand for the integers that the program made, in order. -/
theorem objects_right (ops : List Op) : (run ops).objs.map (·.expr) = (Ref.run ops).exprs := (run_good ops).exprs.symm

/-- A comparison that is answered without asking the solver is answered right. -/
theorem shortcut_right (ops : List Op) (k : Nat) (b : Bool) (h : (run ops).slots[k]? = some (.concrete b)) (v : Val) (hv : (run ops).Holds v) :
    (Ref.run ops).Right v (k, b) := by
  obtain ⟨e, cmp, c, h1, h2⟩ := (run_good ops).known k b h
  exact ⟨e, cmp, c, h1, h2 v hv⟩

/-- Every decision about a comparison that was made is answered: the program never gets stuck. -/
theorem decision_answered (ops : List Op) (k : Nat) (choice : Bool) (h : k < (Ref.run ops).comps.length) :
    ∃ b, (run (ops ++ [.decide k choice])).answers = (run ops).answers ++ [(k, b)] ∧
      (b = choice ∨ (run ops).slots[k]? = some (.concrete b)) := by
  have e : run (ops ++ [.decide k choice]) = step (run ops) (.decide k choice) := by simp [run]
  rw [e]
  have hg := run_good ops
  rw [← hg.count] at h
  cases hk : (run ops).slots[k]? with
  | none => rw [List.getElem?_eq_none_iff] at hk; omega
  | some x =>
    cases x with
    | concrete b => exact ⟨b, by simp only [step, hk], Or.inr rfl⟩
    | pending i e cmp c =>
      obtain ⟨_, o, ho, _⟩ := hg.pending k i e cmp c hk
      exact ⟨choice, by simp only [step, hk, ho], Or.inl rfl⟩

/-- `x = make(0, 100)`; `x < 50` is decided to be true; `y = -x`; then `y > -49` is decided, and `x > 60` needs no solver. -/
def sample : List Op :=
  [.make (some 0) (some 100), .compare 0 .lt 50, .decide 0 true, .neg 0, .compare 1 .gt (-49), .decide 1 false, .compare 0 .gt 60, .decide 2 true]

example : (run sample).answers = [(0, true), (1, false), (2, false)] ∧ (run sample).objs = [⟨⟨0, false⟩, some 0, some 49⟩, ⟨⟨0, true⟩, some (-49), some (-49)⟩] := by
  decide +kernel

example (v : Val) (h : v 0 = 49) : (run sample).Holds v := by
  have e : ∀ a ∈ (run sample).path, a ∈ [Atom.ge ⟨0, false⟩ 0, .le ⟨0, false⟩ 100, .is ⟨0, false⟩ .lt 50 true, .le ⟨0, false⟩ 49, .ge ⟨0, true⟩ (-49), .le ⟨0, true⟩ 0,
    .is ⟨0, true⟩ .gt (-49) false, .le ⟨0, true⟩ (-49)] := by decide +kernel
  intro a ha
  have := e a ha
  simp only [List.mem_cons, List.not_mem_nil, or_false] at this
  rcases this with rfl | rfl | rfl | rfl | rfl | rfl | rfl | rfl <;> simp [Atom.holds, Expr.eval, Cmp.holds, h]

example : (run sample).slots[2]? = some (.concrete false) := by decide +kernel

end Verif.Bounds
