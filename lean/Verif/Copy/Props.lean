import Verif.Copy.Lemmas3

/-! Theorems about deep copies; see `Spec.lean` for the object graphs considered. -/
namespace Verif.Copy

/-- A list that has itself as an item, a tuple with a symbolic value that is also in the list, a set, a dict and an
instance that shares the dict. -/
def sample : List Obj :=
  [⟨.list, [0, 1, 2, 5, 6]⟩, ⟨.tuple, [2, 3]⟩, ⟨.sym 7, []⟩, ⟨.set, [4]⟩, ⟨.atom 5, []⟩, ⟨.dict, [1, 4]⟩, ⟨.inst 3 [8], [5]⟩]

theorem sample_graph : Graph sample := by
  have hget : ∀ (a : Nat) (o : Obj), sample[a]? = some o → a < 7 := by
    intro a o h
    exact (List.getElem?_eq_some_iff.1 h).1
  refine ⟨?_, ?_, ⟨fun a => if a = 1 then 3 else if a = 3 then 2 else 0, ?_⟩, ?_, ?_⟩
  all_goals
    intro a o h
    have ha := hget a o h
    obtain rfl | rfl | rfl | rfl | rfl | rfl | rfl : a = 0 ∨ a = 1 ∨ a = 2 ∨ a = 3 ∨ a = 4 ∨ a = 5 ∨ a = 6 := by omega
    all_goals
      simp only [sample, List.getElem?_cons_zero, List.getElem?_cons_succ, Option.some.injEq] at h
      subst h
      simp [sample]
  rintro ⟨p, hp⟩
  have := reach_closed (h := sample) (fun b => b = 4) (by intro b o hb ho; subst hb; simp [sample] at ho; subst ho; simp) p rfl hp
  cases this

/-- A list with an object that cannot be taken apart. -/
def withLock : List Obj := [⟨.list, [1, 2]⟩, ⟨.atom 1, []⟩, ⟨.locked 9, []⟩]

theorem withLock_graph : Graph withLock := by
  have hget : ∀ (a : Nat) (o : Obj), withLock[a]? = some o → a < 3 := by
    intro a o h
    exact (List.getElem?_eq_some_iff.1 h).1
  refine ⟨?_, ?_, ⟨fun a => 0, ?_⟩, ?_, ?_⟩
  all_goals
    intro a o h
    have ha := hget a o h
    obtain rfl | rfl | rfl : a = 0 ∨ a = 1 ∨ a = 2 := by omega
    all_goals
      simp only [withLock, List.getElem?_cons_zero, List.getElem?_cons_succ, Option.some.injEq] at h
      subst h
      simp [withLock]

theorem start_inv (heap : List Obj) (mode : Mode) : Inv heap mode [] { heap := heap, memo := [], kept := [] } :=
  ⟨List.prefix_refl _, fun _ _ h => (by cases h), fun _ _ h => (by cases h), fun _ _ _ h => (by cases h),
    fun _ _ h => (by cases h)⟩

theorem deepcopy_inv {heap : List Obj} (hw : Graph heap) {mode : Mode} (hm : mode ≠ .std) {root : Nat}
    (hr : root < heap.length) {n c : Nat} {s : St} (h : deepcopy mode n heap root = .ok c s) :
    Inv heap mode [] s ∧ s.img root = some c := by
  have := (spec hw hm n).1 [] root _ hr (start_inv heap mode)
  unfold deepcopy at h
  rw [h] at this
  exact ⟨this.1, this.2.2.1⟩

/-- Copying comes to an end, also for objects that can be reached from themselves.  (What is missing: bound methods,
and sets that can be reached from their items; this holds for all partial theorems here.) -/
theorem ends_partial {heap : List Obj} (hw : Graph heap) {mode : Mode} (hm : mode ≠ .std) {root : Nat}
    (hr : root < heap.length) : ∃ n, ∀ m, n ≤ m → deepcopy mode m heap root ≠ .outOfFuel := by
  obtain ⟨rank, hrank⟩ := hw.rank
  obtain ⟨n, hn⟩ := copy_ends (mode := mode) hw hm hrank (undone heap { heap := heap, memo := [], kept := [] }) (rank root + 1)
  refine ⟨n, fun m hnm h => ?_⟩
  have := hn m hnm [] root _ hr (start_inv heap mode) (Nat.le_refl _) (Nat.lt_succ_self _)
  unfold deepcopy at h
  rw [h] at this
  exact this

example : ∃ n, ∀ m, n ≤ m → deepcopy .realize m sample 0 ≠ .outOfFuel :=
  ends_partial sample_graph (by decide) (by decide)

/-- Whichever path of references is followed, the copy looks like the original, and symbolic values are realized if
asked for. -/
theorem shape_partial {heap : List Obj} (hw : Graph heap) {mode : Mode} (hm : mode ≠ .std) {root : Nat}
    (hr : root < heap.length) {n c : Nat} {s : St} (h : deepcopy mode n heap root = .ok c s) (p : List Nat) :
    see s.heap c p = (see heap root p).map (fun x => (x.1.copied mode, x.2)) := by
  obtain ⟨hi, hc⟩ := deepcopy_inv hw hm hr h
  exact see_copy hi hc p

/-- Two paths lead to the same object in the copy just if they do in the original. -/
theorem aliasing_partial {heap : List Obj} (hw : Graph heap) {mode : Mode} (hm : mode ≠ .std) {root : Nat}
    (hr : root < heap.length) {n c : Nat} {s : St} (h : deepcopy mode n heap root = .ok c s) (p q : List Nat) :
    resolve s.heap c p = resolve s.heap c q ↔ resolve heap root p = resolve heap root q := by
  obtain ⟨hi, hc⟩ := deepcopy_inv hw hm hr h
  rcases resolve_copy hi p hc with ⟨h1, h2⟩ | ⟨a, d, h1, h2, h3⟩
  · rcases resolve_copy hi q hc with ⟨h1', h2'⟩ | ⟨b, e, h1', h2', h3'⟩
    · simp [h1, h2, h1', h2']
    · simp [h1, h2, h1', h2']
  · rcases resolve_copy hi q hc with ⟨h1', h2'⟩ | ⟨b, e, h1', h2', h3'⟩
    · simp [h1, h2, h1', h2']
    · simp only [h1, h2, h1', h2', Option.some.injEq]
      constructor
      · rintro rfl; exact img_inj hi h3 h3'
      · rintro rfl; rw [h3] at h3'; exact Option.some.inj h3'

/-- The objects that existed before are as before. -/
theorem original_partial {heap : List Obj} (hw : Graph heap) {mode : Mode} (hm : mode ≠ .std) {root : Nat}
    (hr : root < heap.length) {n c : Nat} {s : St} (h : deepcopy mode n heap root = .ok c s) : heap <+: s.heap :=
  (deepcopy_inv hw hm hr h).1.pre

theorem deepcopy_apart {heap : List Obj} (hw : Graph heap) {mode : Mode} (hm : mode ≠ .std) {root : Nat}
    (hr : root < heap.length) {n c : Nat} {s : St} (h : deepcopy mode n heap root = .ok c s) : Apart s.heap root c := by
  obtain ⟨hi, hc⟩ := deepcopy_inv hw hm hr h
  exact ⟨fun b => orig_small hw hi hr, fun b => copy_small hi hc, copy_apart hw hi hc⟩

/-- After any changes of original and copy, a change of the copy is not seen in the original. -/
theorem original_isolated_partial {heap : List Obj} (hw : Graph heap) {mode : Mode} (hm : mode ≠ .std) {root : Nat}
    (hr : root < heap.length) {n c : Nat} {s : St} (h : deepcopy mode n heap root = .ok c s) (ws : List Change)
    (path : List Nat) (src : List Source) (p : List Nat) :
    let now := history root c ws s.heap
    resolve (write c path src now) root p = resolve now root p ∧ see (write c path src now) root p = see now root p :=
  see_write (apart_history ws (deepcopy_apart hw hm hr h)) path src p

/-- After any changes of original and copy, a change of the original is not seen in the copy. -/
theorem copy_isolated_partial {heap : List Obj} (hw : Graph heap) {mode : Mode} (hm : mode ≠ .std) {root : Nat}
    (hr : root < heap.length) {n c : Nat} {s : St} (h : deepcopy mode n heap root = .ok c s) (ws : List Change)
    (path : List Nat) (src : List Source) (p : List Nat) :
    let now := history root c ws s.heap
    resolve (write root path src now) c p = resolve now c p ∧ see (write root path src now) c p = see now c p :=
  see_write (apart_history ws (deepcopy_apart hw hm hr h)).symm path src p

/-- A copy in mode `realize` has no symbolic values. -/
theorem realize_concrete_partial {heap : List Obj} (hw : Graph heap) {root : Nat} (hr : root < heap.length) {n c : Nat}
    {s : St} (h : deepcopy .realize n heap root = .ok c s) (p : List Nat) (v k : Nat) :
    see s.heap c p ≠ some (.sym v, k) := by
  rw [shape_partial hw (by decide) hr h p]
  cases see heap root p with
  | none => simp
  | some x =>
    obtain ⟨kind, l⟩ := x
    cases kind <;> simp [Kind.copied]

/-- `TypeError` is raised just if the mode is `regular` and an object that cannot be taken apart can be reached; there
is never an internal error. -/
theorem typeError_iff_partial {heap : List Obj} (hw : Graph heap) {mode : Mode} (hm : mode ≠ .std) {root : Nat}
    (hr : root < heap.length) {n : Nat} (hn : deepcopy mode n heap root ≠ .outOfFuel) :
    deepcopy mode n heap root ≠ .internal ∧
    ((∃ s, deepcopy mode n heap root = .typeError s) ↔
      mode = .regular ∧ ∃ p v k, see heap root p = some (.locked v, k)) := by
  have hp := (spec hw hm n).1 [] root _ hr (start_inv heap mode)
  have hinv := fun c s => deepcopy_inv (mode := mode) hw hm hr (n := n) (c := c) (s := s)
  unfold deepcopy at hn hinv ⊢
  cases hres : copy mode n root { heap := heap, memo := [], kept := [] } with
  | ok c s =>
    refine ⟨by simp, ?_⟩
    simp only [reduceCtorEq, exists_false, false_iff]
    rintro ⟨hreg, p, v, k, hsee⟩
    obtain ⟨hi, hc⟩ := hinv c s hres
    unfold see at hsee
    rcases resolve_copy hi p hc with ⟨h1, _⟩ | ⟨b, d, h1, h2, h3⟩
    · rw [h1] at hsee; cases hsee
    · rw [h1] at hsee
      obtain ⟨o, _, h4, _, _, _, _, h6⟩ := good_of_inv hi h3
      simp only [h4, Option.map_some, Option.some.injEq, Prod.mk.injEq] at hsee
      exact h6 hreg v hsee.1
  | typeError s =>
    refine ⟨by simp, ?_⟩
    rw [hres] at hp
    obtain ⟨hreg, b, o, v, ⟨p, hb⟩, ho, hv⟩ := hp
    refine ⟨fun _ => ⟨hreg, p, v, o.kids.length, ?_⟩, fun _ => ⟨s, rfl⟩⟩
    unfold see
    rw [hb]
    simp only [ho, Option.map_some, hv]
  | internal => rw [hres] at hp; exact hp.elim
  | outOfFuel => exact absurd hres hn

/-- Objects that cannot be taken apart are kept by the other modes. -/
example : ∃ s, deepcopy .bestEffort 20 withLock 0 = .ok 3 s ∧ resolve s.heap 3 [1] = some 2 := by
  exact ⟨_, rfl, rfl⟩

example : ∃ s, deepcopy .regular 20 withLock 0 = .typeError s := ⟨_, rfl⟩

example : ∃ p v k, see withLock 0 p = some (.locked v, k) := ⟨[1], 9, 0, rfl⟩

/-- The sample: the copy is a list that has itself as an item, the symbolic value is shared by list and tuple, and the
dict is shared by list and instance. -/
example : ∃ s, deepcopy .regular 40 sample 0 = .ok 7 s ∧ resolve s.heap 7 [0, 0] = some 7 ∧
    resolve s.heap 7 [1, 0] = some 8 ∧ resolve s.heap 7 [2] = some 8 ∧
    resolve s.heap 7 [3] = resolve s.heap 7 [4, 0] ∧ see s.heap 7 [3] = some (.dict, 2) := by
  exact ⟨_, rfl, rfl, rfl, rfl, rfl, rfl⟩

example : ∃ s, deepcopy .realize 40 sample 0 = .ok 7 s ∧ see s.heap 7 [1, 0] = some (.atom 7, 0) := ⟨_, rfl, rfl⟩

/-- A change of the copy that is seen in the copy. -/
example : ∃ s, deepcopy .regular 40 sample 0 = .ok 7 s ∧
    see (write 7 [4, 0] [.new 1, .path [0]] s.heap) 7 [3, 0] = some (.atom 1, 0) := ⟨_, rfl, rfl⟩

/-! ## Disagreements -/

/-- Disagreement: the object that a bound method is bound to is copied by the standard library, so a realized copy of
`[x.method, x]` has symbolic values, in both items. -/
theorem realize_method : ∃ s, deepcopy .realize 40 [⟨.list, [1, 2]⟩, ⟨.method 0, [2]⟩, ⟨.inst 0 [0], [3]⟩, ⟨.sym 7, []⟩] 0 = .ok 4 s ∧
    see s.heap 4 [0, 0, 0] = some (.sym 7, 0) ∧ see s.heap 4 [1, 0] = some (.sym 7, 0) := ⟨_, rfl, rfl, rfl⟩

/-- Disagreement: a copy that should be made as well as possible, of `[x.method, x]` where `x` has an object that
cannot be taken apart, ends in an internal error: the copy of `x` was entered into the memo, but `x` was not kept. -/
theorem method_internal : deepcopy .bestEffort 40 [⟨.list, [1, 2]⟩, ⟨.method 0, [2]⟩, ⟨.inst 0 [0], [3]⟩, ⟨.locked 7, []⟩] 0 = .internal := rfl

/-- Disagreement: the copy of a set that can be reached from one of its items has not itself there, but another set,
as with the standard library. -/
theorem set_cycle : ∃ s, deepcopy .regular 40 [⟨.set, [1]⟩, ⟨.inst 0 [0], [0]⟩] 0 = .ok 4 s ∧
    resolve s.heap 4 [0, 0] = some 3 ∧ resolve [⟨.set, [1]⟩, ⟨.inst 0 [0], [0]⟩] 0 [0, 0] = some 0 := ⟨_, rfl, rfl, rfl⟩

end Verif.Copy
