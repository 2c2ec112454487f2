import Verif.Analyze.Model
import Verif.Contract.Props
/-
Helper lemmas for `Verif.Analyze.Props`.
-/
namespace Verif.Analyze
open Verif.Opts (OptSet Full Kind)

theorem inForce_eq {defaults : Full Val} {inCode given : OptSet Val} {o : Full Val} (h : InForce defaults inCode given o) :
    (defaults.overlay inCode).overlay given = o := by
  funext f
  have hf := h f
  simp only [Opts.lastSet] at hf
  unfold Full.overlay
  cases hg : given f with
  | some v => rw [hg] at hf; simpa using hf
  | none =>
    rw [hg] at hf
    cases hc : inCode f with
    | some v => rw [hc] at hf; simpa using hf
    | none => rw [hc] at hf; simpa using hf

theorem mem_syntaxMessages (c : Conds) (m : Nat) : m ∈ syntaxMessages c ↔ Faulty c.pre c.post c.messages m := by
  simp only [syntaxMessages, Faulty, List.mem_filterMap, List.mem_append]

theorem wellformed_iff (c : Conds) : Wellformed c.pre c.post c.messages ↔ (syntaxMessages c).isEmpty = true := by
  rw [List.isEmpty_iff, List.eq_nil_iff_forall_not_mem]
  exact forall_congr' fun m => not_congr (mem_syntaxMessages c m).symm

theorem all_compiled {c : Conds} (hs : ∀ p ∈ c.post, p.Sound) (hw : Wellformed c.pre c.post c.messages) :
    c.post.filter (fun p => p.compiled) = c.post := by
  rw [List.filter_eq_self]
  intro p hp
  rcases hs p hp with h | h
  · exact h
  · cases he : p.err with
    | none => exact absurd he h
    | some m => exact absurd (Or.inl ⟨p, Or.inr hp, he⟩) (hw m)

theorem analyzeFunction_wf (defaults : Full Val) (scope : Option (List Kind)) (name : Name) (directives : OptSet Val)
    (lookup : List Kind → Option Conds) (options : OptSet Val) (o : Full Val) (c : Conds)
    (ho : InForce defaults directives options o) (he : enabledOf o = true)
    (hc : lookup (conditionParser scope (kindsOf o)) = some c) (hs : ∀ p ∈ c.post, p.Sound)
    (hw : Wellformed c.pre c.post c.messages) :
    analyzeFunction defaults scope name directives lookup options =
      c.post.map fun p => .condition name o { c with post := [p] } := by
  unfold analyzeFunction
  rw [inForce_eq ho]
  simp only [he, Bool.not_true, Bool.false_eq_true, if_false, hc, (wellformed_iff c).mp hw, if_true, all_compiled hs hw]

theorem mem_analyzeFunction (defaults : Full Val) (scope : Option (List Kind)) (name : Name) (directives : OptSet Val)
    (lookup : List Kind → Option Conds) (options : OptSet Val) (o : Full Val) (x : Check)
    (ho : InForce defaults directives options o)
    (hx : x ∈ analyzeFunction defaults scope name directives lookup options) :
    enabledOf o = true ∧ ∃ c, lookup (conditionParser scope (kindsOf o)) = some c ∧
      ((Wellformed c.pre c.post c.messages ∧ ∃ p ∈ c.post, p.compiled = true ∧ x = .condition name o { c with post := [p] }) ∨
       (∃ ms, ¬ Wellformed c.pre c.post c.messages ∧ x = .syntaxErrors ms ∧ ∀ m, m ∈ ms ↔ Faulty c.pre c.post c.messages m)) := by
  unfold analyzeFunction at hx
  rw [inForce_eq ho] at hx
  cases he : enabledOf o with
  | false => simp [he] at hx
  | true =>
    simp only [he, Bool.not_true, Bool.false_eq_true, if_false] at hx
    refine ⟨rfl, ?_⟩
    cases hc : lookup (conditionParser scope (kindsOf o)) with
    | none => simp [hc] at hx
    | some c =>
      simp only [hc] at hx
      refine ⟨c, rfl, ?_⟩
      by_cases hw : (syntaxMessages c).isEmpty = true
      · simp only [hw, if_true, List.mem_map, List.mem_filter] at hx
        obtain ⟨p, ⟨hp, hpc⟩, rfl⟩ := hx
        exact Or.inl ⟨(wellformed_iff c).mpr hw, p, hp, hpc, rfl⟩
      · simp only [hw] at hx
        exact Or.inr ⟨_, fun h => hw ((wellformed_iff c).mp h), by simpa using hx, fun m => mem_syntaxMessages c m⟩

theorem lookup_mem {γ : Type} {l : List (Name × γ)} {n : Name} {v : γ} (h : l.lookup n = some v) : (n, v) ∈ l := by
  induction l with
  | nil => simp at h
  | cons e l ih =>
    obtain ⟨k, w⟩ := e
    rw [List.lookup_cons] at h
    by_cases hk : (n == k) = true
    · simp only [hk] at h
      have : n = k := by simpa using hk
      simp_all
    · simp only [hk] at h
      exact List.mem_cons_of_mem _ (ih (by simpa using h))

theorem mem_analyzeClass (defaults : Full Val) (cls : Class) (options : OptSet Val) (x : Check)
    (hx : x ∈ analyzeClass defaults none cls options) :
    ∃ n y, x = .clamped y cls.name ∧ skipped cls (cls.attr n) = false ∧
      (∃ e ∈ (Contract.classConds (cls.tree (kindsOf (defaults.overlay options)))).methods, e.1 = n ∧
        (relevantConds n e.2).hasAny = true) ∧
      y ∈ analyzeFunction defaults (some (kindsOf (defaults.overlay options))) n (cls.attr n).directives
        (fun k => (Contract.classConds (cls.tree k)).methods.lookup n) options := by
  unfold analyzeClass at hx
  simp only [conditionParser, List.mem_flatMap] at hx
  obtain ⟨e, he, hx⟩ := hx
  by_cases hsk : skipped cls (cls.attr e.1) = true
  · simp [hsk] at hx
  · simp only [hsk] at hx
    by_cases ha : (relevantConds e.1 e.2).hasAny = true
    · simp only [ha, if_true] at hx
      obtain ⟨y, hy, rfl⟩ := by simpa using hx
      exact ⟨e.1, y, rfl, by simpa using hsk, ⟨e, he, rfl, ha⟩, hy⟩
    · simp [ha] at hx

theorem class_mem (defaults : Full Val) (cls : Class) (options : OptSet Val) (n : Name) (cc : Conds) (y : Check)
    (hcc : Contract.methodConds (cls.tree (kindsOf (defaults.overlay options))) n = some cc)
    (hsk : skipped cls (cls.attr n) = false) (ha : (relevantConds n cc).hasAny = true)
    (hy : y ∈ analyzeFunction defaults (some (kindsOf (defaults.overlay options))) n (cls.attr n).directives
        (fun k => (Contract.classConds (cls.tree k)).methods.lookup n) options) :
    .clamped y cls.name ∈ analyzeClass defaults none cls options := by
  unfold analyzeClass
  simp only [conditionParser, List.mem_flatMap]
  refine ⟨(n, cc), lookup_mem hcc, ?_⟩
  simp only [hsk, ha, if_true, Bool.false_eq_true, if_false, List.mem_map]
  exact ⟨y, hy, rfl⟩

/-! ### Sorting -/

theorem insertMember_perm (x : Name × Member) (l : List (Name × Member)) : (insertMember x l).Perm (x :: l) := by
  induction l with
  | nil => exact List.Perm.refl _
  | cons y ys ih =>
    unfold insertMember
    split
    · exact (List.Perm.cons y ih).trans (List.Perm.swap x y ys)
    · exact List.Perm.refl _

theorem getmembers_perm (l : List (Name × Member)) : (getmembers l).Perm l := by
  induction l with
  | nil => exact List.Perm.refl _
  | cons x xs ih => exact (insertMember_perm x _).trans (List.Perm.cons x ih)

theorem insertMember_sorted (x : Name × Member) (l : List (Name × Member))
    (h : l.Pairwise (fun a b => a.1 < b.1)) (hx : ∀ y ∈ l, y.1 ≠ x.1) :
    (insertMember x l).Pairwise (fun a b => a.1 < b.1) := by
  induction l with
  | nil => simp [insertMember]
  | cons y ys ih =>
    rw [List.pairwise_cons] at h
    unfold insertMember
    split
    · rename_i hlt
      rw [List.pairwise_cons]
      refine ⟨fun z hz => ?_, ih h.2 fun z hz => hx z (List.mem_cons_of_mem _ hz)⟩
      rcases List.mem_cons.mp ((insertMember_perm x ys).mem_iff.mp hz) with rfl | hz
      · exact hlt
      · exact h.1 z hz
    · rename_i hlt
      have hxy : x.1 < y.1 := by
        by_cases h' : x.1 < y.1
        · exact h'
        · exact absurd (List.le_antisymm (List.not_lt.mp h') (List.not_lt.mp hlt)) (hx y List.mem_cons_self)
      rw [List.pairwise_cons]
      refine ⟨fun z hz => ?_, by rw [List.pairwise_cons]; exact h⟩
      rcases List.mem_cons.mp hz with rfl | hz
      · exact hxy
      · exact List.lt_trans hxy (h.1 z hz)

theorem getmembers_sorted (l : List (Name × Member)) (hn : (l.map Prod.fst).Nodup) :
    (getmembers l).Pairwise (fun a b => a.1 < b.1) := by
  induction l with
  | nil => exact List.Pairwise.nil
  | cons x xs ih =>
    rw [List.map_cons, List.nodup_cons] at hn
    refine insertMember_sorted x _ (ih hn.2) fun y hy he => hn.1 ?_
    rw [← he]
    exact List.mem_map_of_mem ((getmembers_perm xs).mem_iff.mp hy)

theorem sorted_unique (a b : List (Name × Member)) (hp : a.Perm b) (ha : a.Pairwise (fun x y => x.1 < y.1))
    (hb : b.Pairwise (fun x y => x.1 < y.1)) : a = b :=
  hp.eq_of_pairwise (fun _ _ _ _ hxy hyx => absurd (List.lt_trans hxy hyx) (List.lt_irrefl _)) ha hb

theorem getmembers_eq (dict sorted : List (Name × Member)) (hp : sorted.Perm dict) (hs : Alphabetical (sorted.map Prod.fst)) :
    getmembers dict = sorted := by
  have hs' : sorted.Pairwise (fun x y => x.1 < y.1) := by
    unfold Alphabetical at hs
    rwa [List.pairwise_map] at hs
  have hn : (dict.map Prod.fst).Nodup := by
    rw [← (hp.map Prod.fst).nodup_iff, List.nodup_iff_pairwise_ne, List.pairwise_map]
    exact hs'.imp fun h he => absurd (he ▸ h) (List.lt_irrefl _)
  exact sorted_unique _ _ ((getmembers_perm dict).trans hp.symm) (getmembers_sorted dict hn) hs'

end Verif.Analyze
