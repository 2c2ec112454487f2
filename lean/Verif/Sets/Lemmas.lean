import Verif.Sets.Model
import Mathlib.Tactic.Linarith
import Mathlib.Data.List.Nodup
import Mathlib.Data.List.Perm.Subperm
/-
Helper lemmas about sets.
-/
namespace Verif.Sets

variable {A : Type} [DecidableEq A]

/-- A tree without references to mutable sets, over lists of distinct items. -/
def Good : SetE A → Prop
  | .linear items => items.Nodup
  | .comb _ a b => Good a ∧ Good b
  | .cell _ => False

/-- The elements of such a tree. -/
def mem : SetE A → A → Bool
  | .linear items, x => decide (x ∈ items)
  | .comb op a b, x => op.eval (mem a x) (mem b x)
  | .cell _, _ => false

/-- The elements as a mathematical set. -/
def sem (e : SetE A) : PySet A := fun x => mem e x = true

theorem checkUnique_spec (l : List A) : (checkUnique l).Nodup ∧ ∀ x, x ∈ checkUnique l ↔ x ∈ l := by
  have : ∀ (l acc : List A), acc.Nodup →
      (l.foldl (fun accepted item => if item ∈ accepted then accepted else accepted ++ [item]) acc).Nodup ∧
      ∀ x, x ∈ l.foldl (fun accepted item => if item ∈ accepted then accepted else accepted ++ [item]) acc ↔
        x ∈ acc ∨ x ∈ l := by
    intro l
    induction l with
    | nil => intro acc h; exact ⟨h, by simp⟩
    | cons a l ih =>
      intro acc h
      rw [List.foldl_cons]
      by_cases ha : a ∈ acc
      · rw [if_pos ha]
        obtain ⟨h1, h2⟩ := ih acc h
        refine ⟨h1, fun x => ?_⟩
        rw [h2]
        constructor
        · rintro (h | h)
          · exact .inl h
          · exact .inr (List.mem_cons_of_mem _ h)
        · rintro (h | h)
          · exact .inl h
          · rcases List.mem_cons.mp h with rfl | h
            · exact .inl ha
            · exact .inr h
      · rw [if_neg ha]
        have hn : (acc ++ [a]).Nodup := by
          rw [List.nodup_append]
          refine ⟨h, by simp, ?_⟩
          intro x hx y hy
          rw [List.mem_singleton.mp hy]
          rintro rfl
          exact ha hx
        obtain ⟨h1, h2⟩ := ih _ hn
        refine ⟨h1, fun x => ?_⟩
        rw [h2]
        simp only [List.mem_append, List.mem_cons, List.not_mem_nil, or_false]
        exact or_assoc
  obtain ⟨h1, h2⟩ := this l [] List.nodup_nil
  exact ⟨h1, fun x => by rw [checkUnique, h2]; simp⟩

theorem containsWith_good (cell : Nat → A → Option Bool) {e : SetE A} (h : Good e) (x : A) :
    containsWith cell e x = some (mem e x) := by
  induction e with
  | linear items =>
    simp only [containsWith, mem]
    congr 1
    rw [Bool.eq_iff_iff, List.any_eq_true]
    simp
  | comb op a b iha ihb =>
    simp only [containsWith, iha h.1, ihb h.2, Option.bind_some, mem]
  | cell i => exact h.elim

theorem filterO_some (p : A → Bool) (q : A → Option Bool) (l : List A) (h : ∀ x ∈ l, q x = some (p x)) :
    filterO q l = some (l.filter p) := by
  induction l with
  | nil => rfl
  | cons a l ih =>
    simp only [filterO]
    rw [h a (by simp), ih fun x hx => h x (by simp [hx])]
    simp only [Option.bind_some, Option.map_some, List.filter_cons]

theorem allO_some (p : A → Bool) (q : A → Option Bool) (l : List A) (h : ∀ x ∈ l, q x = some (p x)) :
    allO q l = some (l.all p) := by
  induction l with
  | nil => rfl
  | cons a l ih =>
    simp only [allO]
    rw [h a (by simp), ih fun x hx => h x (by simp [hx])]
    simp only [Option.bind_some, List.all_cons]
    cases p a <;> simp

theorem iterWith_good (cell : Nat → A → Option Bool) (ci : Nat → Option (List A)) {e : SetE A} (h : Good e) :
    ∃ l, iterWith cell ci e = some l ∧ Lists (sem e) l := by
  induction e with
  | linear items => exact ⟨items, rfl, h, fun x => by simp [sem, mem]⟩
  | comb op a b iha ihb =>
    obtain ⟨la, ha, na, ma⟩ := iha h.1
    obtain ⟨lb, hb, nb, mb⟩ := ihb h.2
    refine ⟨la.filter (fun x => op.eval true (mem b x)) ++
      lb.filter (fun x => if mem a x then false else op.eval (mem a x) true), ?_, ?_⟩
    · simp only [iterWith, ha, hb, Option.bind_some]
      rw [filterO_some (fun x => op.eval true (mem b x)) _ la
          (fun x _ => by rw [containsWith_good cell h.2]; rfl)]
      simp only [Option.bind_some]
      rw [filterO_some (fun x => if mem a x then false else op.eval (mem a x) true) _ lb
          (fun x _ => by rw [containsWith_good cell h.1]; rfl)]
      simp only [Option.bind_some]
    · refine ⟨?_, ?_⟩
      · rw [List.nodup_append]
        refine ⟨na.filter _, nb.filter _, ?_⟩
        intro x hx y hy
        rintro rfl
        have h1 := (ma x).mp (List.mem_filter.mp hx).1
        have h2 := (List.mem_filter.mp hy).2
        rw [show mem a x = true from h1] at h2
        simp at h2
      · intro x
        have ha' := ma x
        have hb' := mb x
        simp only [List.mem_append, List.mem_filter, sem, mem] at ha' hb' ⊢
        rw [ha', hb']
        cases mem a x <;> cases mem b x <;> cases op <;> simp [LazyOp.eval]
  | cell i => exact h.elim

theorem contains_good (σ : Store A) {e : SetE A} (h : Good e) (x : A) : contains σ e x = some (mem e x) := by
  unfold contains limit containsF
  exact containsWith_good _ h x

theorem iter_good (σ : Store A) {e : SetE A} (h : Good e) : ∃ l, iter σ e = some l ∧ Lists (sem e) l := by
  unfold iter limit iterF
  exact iterWith_good _ _ h

/-- An operand is good when it is a good tree or a reference to a shell that holds one. -/
def GoodArg (σ : Store A) (e t : SetE A) : Prop :=
  Good t ∧ (e = t ∨ ∃ i, e = .cell i ∧ σ[i]? = some t)

theorem contains_arg (σ : Store A) {e t : SetE A} (h : GoodArg σ e t) (x : A) :
    contains σ e x = some (mem t x) := by
  obtain ⟨hg, rfl | ⟨i, rfl, hi⟩⟩ := h
  · exact contains_good σ hg x
  · unfold contains limit containsF containsWith
    simp only [hi, Option.bind_some]
    unfold containsF
    exact containsWith_good _ hg x

theorem iter_arg (σ : Store A) {e t : SetE A} (h : GoodArg σ e t) :
    ∃ l, iter σ e = some l ∧ Lists (sem t) l := by
  obtain ⟨hg, rfl | ⟨i, rfl, hi⟩⟩ := h
  · exact iter_good σ hg
  · unfold iter limit iterF iterWith
    simp only [hi, Option.bind_some]
    unfold iterF
    exact iterWith_good _ _ hg

theorem lists_length {s : PySet A} {l l' : List A} (h : Lists s l) (h' : Lists s l') : l.length = l'.length :=
  Nat.le_antisymm
    (List.Nodup.subperm h.1 (fun x hx => (h'.2 x).mpr ((h.2 x).mp hx))).length_le
    (List.Nodup.subperm h'.1 (fun x hx => (h.2 x).mpr ((h'.2 x).mp hx))).length_le

theorem sub_length {s t : PySet A} {l l' : List A} (h : Lists s l) (h' : Lists t l') (hs : Sub s t) :
    l.length ≤ l'.length :=
  (List.Nodup.subperm h.1 (fun x hx => (h'.2 x).mpr (hs x ((h.2 x).mp hx)))).length_le

theorem sub_of_length {s t : PySet A} {l l' : List A} (h : Lists s l) (h' : Lists t l') (hs : Sub s t)
    (hl : l'.length ≤ l.length) : Sub t s := by
  have hp := (List.Nodup.subperm h.1 (fun x hx => (h'.2 x).mpr (hs x ((h.2 x).mp hx)))).perm_of_length_le hl
  intro x hx
  exact (h.2 x).mp (hp.mem_iff.mpr ((h'.2 x).mpr hx))

theorem setLe_spec (σ : Store A) {a b t u : SetE A} (ha : GoodArg σ a t) (hb : GoodArg σ b u) :
    ∃ r, setLe σ a b = some r ∧ (r = true ↔ Sub (sem t) (sem u)) := by
  obtain ⟨la, ia, na⟩ := iter_arg σ ha
  obtain ⟨lb, ib, nb⟩ := iter_arg σ hb
  unfold setLe len
  simp only [ia, ib, Option.map_some, Option.bind_some]
  by_cases h : la.length > lb.length
  · rw [if_pos h]
    refine ⟨false, rfl, ?_⟩
    simp only [Bool.false_eq_true, false_iff]
    intro hs
    have := sub_length na nb hs
    omega
  · rw [if_neg h, allO_some (mem u) _ la (fun x _ => contains_arg σ hb x)]
    refine ⟨_, rfl, ?_⟩
    rw [List.all_eq_true]
    exact ⟨fun hh x hx => hh x ((na.2 x).mpr hx), fun hh x hx => hh x ((na.2 x).mp hx)⟩

theorem setGe_spec (σ : Store A) {a b t u : SetE A} (ha : GoodArg σ a t) (hb : GoodArg σ b u) :
    ∃ r, setGe σ a b = some r ∧ (r = true ↔ Sub (sem u) (sem t)) := by
  obtain ⟨la, ia, na⟩ := iter_arg σ ha
  obtain ⟨lb, ib, nb⟩ := iter_arg σ hb
  unfold setGe len
  simp only [ia, ib, Option.map_some, Option.bind_some]
  by_cases h : la.length < lb.length
  · rw [if_pos h]
    refine ⟨false, rfl, ?_⟩
    simp only [Bool.false_eq_true, false_iff]
    intro hs
    have := sub_length nb na hs
    omega
  · rw [if_neg h, allO_some (mem t) _ lb (fun x _ => contains_arg σ ha x)]
    refine ⟨_, rfl, ?_⟩
    rw [List.all_eq_true]
    exact ⟨fun hh x hx => hh x ((nb.2 x).mpr hx), fun hh x hx => hh x ((nb.2 x).mp hx)⟩

theorem setLt_spec (σ : Store A) {a b t u : SetE A} (ha : GoodArg σ a t) (hb : GoodArg σ b u) :
    ∃ r, setLt σ a b = some r ∧ (r = true ↔ Sub (sem t) (sem u) ∧ ¬ Sub (sem u) (sem t)) := by
  obtain ⟨la, ia, na⟩ := iter_arg σ ha
  obtain ⟨lb, ib, nb⟩ := iter_arg σ hb
  obtain ⟨r, hr, hr'⟩ := setLe_spec σ ha hb
  unfold setLt len
  simp only [ia, ib, Option.map_some, Option.bind_some]
  by_cases h : la.length < lb.length
  · rw [if_pos h, hr]
    refine ⟨r, rfl, ?_⟩
    rw [hr']
    refine ⟨fun hs => ⟨hs, fun hs' => ?_⟩, fun hs => hs.1⟩
    have := sub_length nb na hs'
    omega
  · rw [if_neg h]
    refine ⟨false, rfl, ?_⟩
    simp only [Bool.false_eq_true, false_iff]
    rintro ⟨hs, hs'⟩
    exact hs' (sub_of_length na nb hs (by omega))

theorem setGt_spec (σ : Store A) {a b t u : SetE A} (ha : GoodArg σ a t) (hb : GoodArg σ b u) :
    ∃ r, setGt σ a b = some r ∧ (r = true ↔ Sub (sem u) (sem t) ∧ ¬ Sub (sem t) (sem u)) := by
  obtain ⟨la, ia, na⟩ := iter_arg σ ha
  obtain ⟨lb, ib, nb⟩ := iter_arg σ hb
  obtain ⟨r, hr, hr'⟩ := setGe_spec σ ha hb
  unfold setGt len
  simp only [ia, ib, Option.map_some, Option.bind_some]
  by_cases h : la.length > lb.length
  · rw [if_pos h, hr]
    refine ⟨r, rfl, ?_⟩
    rw [hr']
    refine ⟨fun hs => ⟨hs, fun hs' => ?_⟩, fun hs => hs.1⟩
    have := sub_length na nb hs'
    omega
  · rw [if_neg h]
    refine ⟨false, rfl, ?_⟩
    simp only [Bool.false_eq_true, false_iff]
    rintro ⟨hs, hs'⟩
    exact hs' (sub_of_length nb na hs (by omega))

theorem setEq_spec (σ : Store A) {a b t u : SetE A} (ha : GoodArg σ a t) (hb : GoodArg σ b u) :
    ∃ r, setEq σ a b = some r ∧ (r = true ↔ ∀ x, sem t x ↔ sem u x) := by
  obtain ⟨la, ia, na⟩ := iter_arg σ ha
  obtain ⟨lb, ib, nb⟩ := iter_arg σ hb
  obtain ⟨r, hr, hr'⟩ := setLe_spec σ ha hb
  unfold setEq len
  simp only [ia, ib, Option.map_some, Option.bind_some]
  by_cases h : la.length = lb.length
  · rw [if_pos h, hr]
    refine ⟨r, rfl, ?_⟩
    rw [hr']
    exact ⟨fun hs x => ⟨hs x, sub_of_length na nb hs (by omega) x⟩, fun hs x => (hs x).mp⟩
  · rw [if_neg h]
    refine ⟨false, rfl, ?_⟩
    simp only [Bool.false_eq_true, false_iff]
    intro hs
    have h1 := sub_length na nb fun x => (hs x).mp
    have h2 := sub_length nb na fun x => (hs x).mpr
    omega

theorem sem_linear (l : List A) : sem (.linear l) = ofList l := by
  funext x; simp [sem, mem, ofList]

theorem sem_comb (op : BinOp) (a b : SetE A) : sem (.comb op.lazy a b) = combine op (sem a) (sem b) := by
  funext x
  simp only [sem, mem, combine]
  cases op <;> cases mem a x <;> cases mem b x <;> simp [BinOp.lazy, LazyOp.eval, BinOp.Means]

theorem sem_comb_rsub (a b : SetE A) : sem (.comb .rsub a b) = combine .sub (sem b) (sem a) := by
  funext x
  simp only [sem, mem, combine]
  cases mem a x <;> cases mem b x <;> simp [LazyOp.eval, BinOp.Means]

theorem good_force (l : List A) : Good (forceList l) := (checkUnique_spec l).1

theorem sem_force (l : List A) : sem (forceList l) = ofList l := by
  rw [forceList, sem_linear]
  funext x
  exact propext ((checkUnique_spec l).2 x)

theorem absSub_spec (σ : Store A) {a b : SetE A} (ha : Good a) (hb : Good b) :
    ∃ e, absSub σ a b = some e ∧ Good e ∧ sem e = combine .sub (sem a) (sem b) := by
  obtain ⟨l, il, nl⟩ := iter_good σ ha
  unfold absSub
  simp only [il, Option.bind_some]
  rw [filterO_some (fun x => !mem b x) _ l (fun x _ => by rw [contains_good σ hb]; rfl)]
  refine ⟨_, rfl, good_force _, ?_⟩
  change sem (forceList _) = _
  rw [sem_force]
  funext x
  simp only [ofList, List.mem_filter, combine, BinOp.Means, nl.2, sem]
  simp

theorem absAnd_spec (σ : Store A) {a b : SetE A} (ha : Good a) (hb : Good b) :
    ∃ e, absAnd σ a b = some e ∧ Good e ∧ sem e = combine .and (sem a) (sem b) := by
  obtain ⟨l, il, nl⟩ := iter_good σ hb
  unfold absAnd
  simp only [il, Option.bind_some]
  rw [filterO_some (fun x => mem a x) _ l (fun x _ => by rw [contains_good σ ha])]
  refine ⟨_, rfl, good_force _, ?_⟩
  change sem (forceList _) = _
  rw [sem_force]
  funext x
  simp only [ofList, List.mem_filter, combine, BinOp.Means, nl.2, sem]
  exact propext and_comm

theorem absOr_spec (σ : Store A) {a b : SetE A} (ha : Good a) (hb : Good b) :
    ∃ e, absOr σ a b = some e ∧ Good e ∧ sem e = combine .or (sem a) (sem b) := by
  obtain ⟨l, il, nl⟩ := iter_good σ ha
  obtain ⟨l', il', nl'⟩ := iter_good σ hb
  unfold absOr
  simp only [il, il', Option.bind_some, Option.map_some]
  refine ⟨_, rfl, good_force _, ?_⟩
  change sem (forceList _) = _
  rw [sem_force]
  funext x
  simp only [ofList, List.mem_append, combine, BinOp.Means, nl.2, nl'.2]

theorem absXor_spec (σ : Store A) {a b : SetE A} (ha : Good a) (hb : Good b) :
    ∃ e, absXor σ a b = some e ∧ Good e ∧ sem e = combine .xor (sem a) (sem b) := by
  obtain ⟨d, hd, gd, sd⟩ := absSub_spec σ ha hb
  obtain ⟨d', hd', gd', sd'⟩ := absSub_spec σ hb ha
  obtain ⟨e, he, ge, se⟩ := absOr_spec σ gd gd'
  refine ⟨e, ?_, ge, ?_⟩
  · unfold absXor
    simp only [hd, hd', Option.bind_some, he]
  · rw [se, sd, sd']
    rfl

/-- Operations that do not keep a mutable set by reference and do not return the set itself. -/
def Op.Plain : Op A → Prop
  | .binary op _ _ => op ≠ .sub
  | .method _ _ ls => ls ≠ []
  | _ => True

theorem foldl_comb (op : LazyOp) (bop : BinOp) (hop : bop.lazy = op) (ls : List (List A)) (e : SetE A)
    (h : Good e) : Good (ls.foldl (fun e l => .comb op e (forceList l)) e) ∧
      sem (ls.foldl (fun e l => .comb op e (forceList l)) e) =
        ls.foldl (fun s l => combine bop s (ofList l)) (sem e) := by
  induction ls generalizing e with
  | nil => exact ⟨h, rfl⟩
  | cons l ls ih =>
    simp only [List.foldl_cons]
    obtain ⟨h1, h2⟩ := ih (.comb op e (forceList l)) ⟨h, good_force l⟩
    refine ⟨h1, ?_⟩
    rw [h2, ← hop, sem_comb, sem_force]

theorem foldl_or (ls : List (List A)) (s : PySet A) :
    ls.foldl (fun s l => combine .or s (ofList l)) s = fun x => s x ∨ ∃ l ∈ ls, x ∈ l := by
  induction ls generalizing s with
  | nil => funext x; simp
  | cons l ls ih =>
    simp only [List.foldl_cons]
    rw [ih]
    funext x
    simp [combine, BinOp.Means, ofList, or_assoc]

theorem step_spec (σ : Store A) (hσ : ∀ e ∈ σ, Good e) (op : Op A) (hp : op.Plain) :
    SetStep (σ.map sem) op (step σ op).1 ((step σ op).2.map sem) ∧ ∀ e ∈ (step σ op).2, Good e := by
  unfold SetStep step
  simp only [List.length_map]
  by_cases hu : ∀ i ∈ op.uses, i < σ.length
  swap
  · rw [if_neg hu, if_neg hu]
    exact ⟨⟨rfl, rfl⟩, hσ⟩
  rw [if_pos hu, if_pos hu]
  have hin : ∀ i, i < σ.length → Good (σ.getD i (.linear [])) ∧ σ[i]? = some (σ.getD i (.linear [])) ∧
      (σ.map sem).getD i (fun _ => False) = sem (σ.getD i (.linear [])) := by
    intro i hi
    have : σ.getD i (.linear []) = σ[i] := by simp [List.getD, hi]
    rw [this]
    refine ⟨hσ _ (List.getElem_mem hi), by simp [hi], by simp [List.getD, hi]⟩
  have hset : ∀ i e, i < σ.length → Good e → ∀ f ∈ σ.set i e, Good f := by
    intro i e _ he f hf
    rcases List.mem_or_eq_of_mem_set hf with h | h
    · exact hσ f h
    · rw [h]; exact he
  have happ : ∀ e, Good e → ∀ f ∈ σ ++ [e], Good f := by
    intro e he f hf
    rcases List.mem_append.mp hf with h | h
    · exact hσ f h
    · rw [List.mem_singleton.mp h]; exact he
  cases op with
  | new l =>
    dsimp only [stepOn, StepOn]
    refine ⟨⟨?_, by simp⟩, happ _ (good_force l)⟩
    rw [List.map_append, List.map_cons, List.map_nil, sem_force]
  | copy i =>
    obtain ⟨hg, hi, hs⟩ := hin i (hu i (by simp [Op.uses]))
    dsimp only [stepOn, StepOn]
    refine ⟨⟨?_, by simp⟩, happ _ hg⟩
    rw [List.map_append, List.map_cons, List.map_nil, hs]
  | contains i x =>
    obtain ⟨hg, hi, hs⟩ := hin i (hu i (by simp [Op.uses]))
    dsimp only [stepOn, StepOn]
    rw [contains_good σ hg, hs]
    exact ⟨⟨rfl, _, rfl, Iff.rfl⟩, hσ⟩
  | len i =>
    obtain ⟨hg, hi, hs⟩ := hin i (hu i (by simp [Op.uses]))
    obtain ⟨l, hl, hl'⟩ := iter_good σ hg
    dsimp only [stepOn, StepOn]
    rw [len, hl, hs]
    exact ⟨⟨rfl, l, hl', rfl⟩, hσ⟩
  | truth i =>
    obtain ⟨hg, hi, hs⟩ := hin i (hu i (by simp [Op.uses]))
    obtain ⟨l, hl, hl'⟩ := iter_good σ hg
    dsimp only [stepOn, StepOn]
    rw [hl, hs]
    refine ⟨⟨rfl, _, rfl, ?_⟩, hσ⟩
    cases l with
    | nil =>
      simp only [List.isEmpty_nil, Bool.not_true, Bool.false_eq_true, false_iff]
      rintro ⟨x, hx⟩
      exact absurd ((hl'.2 x).mpr hx) (by simp)
    | cons a l => simpa using ⟨a, (hl'.2 a).mp (by simp)⟩
  | iter i =>
    obtain ⟨hg, hi, hs⟩ := hin i (hu i (by simp [Op.uses]))
    obtain ⟨l, hl, hl'⟩ := iter_good σ hg
    dsimp only [stepOn, StepOn]
    rw [hl, hs]
    exact ⟨⟨rfl, l, hl', rfl⟩, hσ⟩
  | add i x =>
    obtain ⟨hg, hi, hs⟩ := hin i (hu i (by simp [Op.uses]))
    dsimp only [stepOn, StepOn]
    refine ⟨⟨?_, rfl⟩, hset i _ (hu i (by simp [Op.uses])) ⟨hg, by simp [Good]⟩⟩
    rw [List.map_set, hs, show LazyOp.or = BinOp.or.lazy from rfl, sem_comb, sem_linear]
    congr 1
    funext y
    simp [combine, BinOp.Means, ofList]
  | discard i x =>
    obtain ⟨hg, hi, hs⟩ := hin i (hu i (by simp [Op.uses]))
    dsimp only [stepOn, StepOn]
    refine ⟨⟨?_, rfl⟩, hset i _ (hu i (by simp [Op.uses])) ⟨hg, by simp [Good]⟩⟩
    rw [List.map_set, hs, show LazyOp.sub = BinOp.sub.lazy from rfl, sem_comb, sem_linear]
    congr 1
    funext y
    simp [combine, BinOp.Means, ofList]
  | remove i x =>
    obtain ⟨hg, hi, hs⟩ := hin i (hu i (by simp [Op.uses]))
    dsimp only [stepOn, StepOn]
    rw [contains_good σ hg, hs]
    cases hm : mem (σ.getD i (.linear [])) x with
    | false => exact ⟨.inr ⟨fun h => by rw [sem, hm] at h; exact Bool.false_ne_true h, rfl, rfl⟩, hσ⟩
    | true =>
      refine ⟨.inl ⟨hm, ?_, rfl⟩, hset i _ (hu i (by simp [Op.uses])) ⟨hg, by simp [Good]⟩⟩
      change (σ.set i _).map sem = _
      rw [List.map_set, show LazyOp.sub = BinOp.sub.lazy from rfl, sem_comb, sem_linear]
      congr 1
      funext y
      simp [combine, BinOp.Means, ofList]
  | pop i =>
    obtain ⟨hg, hi, hs⟩ := hin i (hu i (by simp [Op.uses]))
    obtain ⟨l, hl, hl'⟩ := iter_good σ hg
    dsimp only [stepOn, StepOn]
    rw [hl, hs]
    cases l with
    | nil =>
      refine ⟨.inr ⟨fun x hx => absurd ((hl'.2 x).mpr hx) (by simp), rfl, rfl⟩, hσ⟩
    | cons a l =>
      have ha := (hl'.2 a).mp (by simp)
      simp only [Option.bind_some]
      rw [contains_good σ hg, show mem (σ.getD i (.linear [])) a = true from ha]
      refine ⟨.inl ⟨a, ha, ?_, rfl⟩, hset i _ (hu i (by simp [Op.uses])) ⟨hg, by simp [Good]⟩⟩
      change (σ.set i _).map sem = _
      rw [List.map_set, show LazyOp.sub = BinOp.sub.lazy from rfl, sem_comb, sem_linear]
      congr 1
      funext y
      simp [combine, BinOp.Means, ofList]
  | clear i =>
    dsimp only [stepOn, StepOn]
    refine ⟨⟨?_, rfl⟩, hset i _ (hu i (by simp [Op.uses])) (by simp [Good])⟩
    rw [List.map_set, sem_linear]
    congr 1
    funext y
    simp [ofList]
  | update i ls =>
    obtain ⟨hg, hi, hs⟩ := hin i (hu i (by simp [Op.uses]))
    obtain ⟨h1, h2⟩ := foldl_comb .or .or rfl ls _ hg
    dsimp only [stepOn, StepOn]
    refine ⟨⟨?_, rfl⟩, hset i _ (hu i (by simp [Op.uses])) h1⟩
    rw [List.map_set, hs, h2, foldl_or]
  | differenceUpdate i l =>
    obtain ⟨hg, hi, hs⟩ := hin i (hu i (by simp [Op.uses]))
    obtain ⟨e, he, ge, se⟩ := absSub_spec σ hg (good_force l)
    dsimp only [stepOn, StepOn]
    rw [he, hs]
    refine ⟨⟨?_, rfl⟩, hset i _ (hu i (by simp [Op.uses])) ge⟩
    change (σ.set i _).map sem = _
    rw [List.map_set, se, sem_force]
  | intersectionUpdate i l =>
    obtain ⟨hg, hi, hs⟩ := hin i (hu i (by simp [Op.uses]))
    obtain ⟨e, he, ge, se⟩ := absAnd_spec σ hg (good_force l)
    dsimp only [stepOn, StepOn]
    rw [he, hs]
    refine ⟨⟨?_, rfl⟩, hset i _ (hu i (by simp [Op.uses])) ge⟩
    change (σ.set i _).map sem = _
    rw [List.map_set, se, sem_force]
  | symmetricUpdate i l =>
    obtain ⟨hg, hi, hs⟩ := hin i (hu i (by simp [Op.uses]))
    obtain ⟨e, he, ge, se⟩ := absXor_spec σ hg (good_force l)
    dsimp only [stepOn, StepOn]
    rw [he, hs]
    refine ⟨⟨?_, rfl⟩, hset i _ (hu i (by simp [Op.uses])) ge⟩
    change (σ.set i _).map sem = _
    rw [List.map_set, se, sem_force]
  | inplace bop i j =>
    obtain ⟨hg, hi, hs⟩ := hin i (hu i (by simp [Op.uses]))
    obtain ⟨hgj, hj, hsj⟩ := hin j (hu j (by simp [Op.uses]))
    dsimp only [stepOn, StepOn]
    refine ⟨⟨?_, rfl⟩, hset i _ (hu i (by simp [Op.uses])) ⟨hg, hgj⟩⟩
    rw [List.map_set, hs, hsj, sem_comb]
  | binary bop i j =>
    obtain ⟨hg, hi, hs⟩ := hin i (hu i (by simp [Op.uses]))
    obtain ⟨hgj, hj, hsj⟩ := hin j (hu j (by simp [Op.uses]))
    dsimp only [stepOn, StepOn]
    rw [if_neg (show ¬ bop = .sub from hp)]
    refine ⟨⟨?_, by simp⟩, happ _ ⟨hg, hgj⟩⟩
    rw [List.map_append, List.map_cons, List.map_nil, hs, hsj, sem_comb]
  | frozen bop i l =>
    obtain ⟨hg, hi, hs⟩ := hin i (hu i (by simp [Op.uses]))
    dsimp only [stepOn, StepOn]
    refine ⟨⟨?_, by simp⟩, happ _ ⟨hg, good_force l⟩⟩
    rw [List.map_append, List.map_cons, List.map_nil, hs, sem_comb]
    congr 3
    exact sem_force l
  | rsub i l =>
    obtain ⟨hg, hi, hs⟩ := hin i (hu i (by simp [Op.uses]))
    dsimp only [stepOn, StepOn]
    refine ⟨⟨?_, by simp⟩, happ _ ⟨hg, good_force l⟩⟩
    rw [List.map_append, List.map_cons, List.map_nil, hs, sem_comb_rsub]
    congr 3
    exact sem_force l
  | method bop i ls =>
    obtain ⟨hg, hi, hs⟩ := hin i (hu i (by simp [Op.uses]))
    obtain ⟨h1, h2⟩ := foldl_comb bop.lazy bop rfl ls _ hg
    dsimp only [stepOn, StepOn]
    rw [if_neg (show ¬ ls.isEmpty = true by simpa [Op.Plain] using hp)]
    refine ⟨⟨?_, by simp⟩, happ _ h1⟩
    rw [List.map_append, List.map_cons, List.map_nil, hs, h2]
  | le i j =>
    obtain ⟨hg, hi, hs⟩ := hin i (hu i (by simp [Op.uses]))
    obtain ⟨hgj, hj, hsj⟩ := hin j (hu j (by simp [Op.uses]))
    obtain ⟨r, hr, hr'⟩ := setLe_spec σ ⟨hg, .inl rfl⟩ ⟨hgj, .inr ⟨j, rfl, hj⟩⟩
    dsimp only [stepOn, StepOn]
    rw [hr, hs, hsj]
    exact ⟨⟨rfl, r, rfl, hr'⟩, hσ⟩
  | lt i j =>
    obtain ⟨hg, hi, hs⟩ := hin i (hu i (by simp [Op.uses]))
    obtain ⟨hgj, hj, hsj⟩ := hin j (hu j (by simp [Op.uses]))
    obtain ⟨r, hr, hr'⟩ := setLt_spec σ ⟨hg, .inl rfl⟩ ⟨hgj, .inr ⟨j, rfl, hj⟩⟩
    dsimp only [stepOn, StepOn]
    rw [hr, hs, hsj]
    exact ⟨⟨rfl, r, rfl, hr'⟩, hσ⟩
  | ge i j =>
    obtain ⟨hg, hi, hs⟩ := hin i (hu i (by simp [Op.uses]))
    obtain ⟨hgj, hj, hsj⟩ := hin j (hu j (by simp [Op.uses]))
    obtain ⟨r, hr, hr'⟩ := setGe_spec σ ⟨hg, .inl rfl⟩ ⟨hgj, .inr ⟨j, rfl, hj⟩⟩
    dsimp only [stepOn, StepOn]
    rw [hr, hs, hsj]
    exact ⟨⟨rfl, r, rfl, hr'⟩, hσ⟩
  | gt i j =>
    obtain ⟨hg, hi, hs⟩ := hin i (hu i (by simp [Op.uses]))
    obtain ⟨hgj, hj, hsj⟩ := hin j (hu j (by simp [Op.uses]))
    obtain ⟨r, hr, hr'⟩ := setGt_spec σ ⟨hg, .inl rfl⟩ ⟨hgj, .inr ⟨j, rfl, hj⟩⟩
    dsimp only [stepOn, StepOn]
    rw [hr, hs, hsj]
    exact ⟨⟨rfl, r, rfl, hr'⟩, hσ⟩
  | eq i j =>
    obtain ⟨hg, hi, hs⟩ := hin i (hu i (by simp [Op.uses]))
    obtain ⟨hgj, hj, hsj⟩ := hin j (hu j (by simp [Op.uses]))
    obtain ⟨r, hr, hr'⟩ := setEq_spec σ ⟨hg, .inl rfl⟩ ⟨hgj, .inr ⟨j, rfl, hj⟩⟩
    dsimp only [stepOn, StepOn]
    rw [hr, hs, hsj]
    exact ⟨⟨rfl, r, rfl, hr'⟩, hσ⟩
  | isdisjoint i l =>
    obtain ⟨hg, hi, hs⟩ := hin i (hu i (by simp [Op.uses]))
    obtain ⟨e, he, ge, se⟩ := absAnd_spec σ hg (good_force l)
    obtain ⟨r, hr, hr'⟩ := iter_good σ ge
    dsimp only [stepOn, StepOn]
    rw [he, hs]
    simp only [Option.bind_some]
    rw [hr]
    refine ⟨⟨rfl, _, rfl, ?_⟩, hσ⟩
    rw [se, sem_force] at hr'
    rw [List.isEmpty_iff]
    constructor
    · rintro rfl x hx
      exact absurd ((hr'.2 x).mpr hx) (by simp)
    · intro hx
      cases r with
      | nil => rfl
      | cons a r => exact absurd ((hr'.2 a).mp (by simp)) (hx a)

end Verif.Sets
