import Verif.Registry.Model
import Mathlib.Logic.Basic
namespace Verif.Registry

theorem mem_required (ps : List (Nat × Bool)) (n : Nat) : n ∈ required ps ↔ (n, true) ∈ ps := by
  simp [required]

theorem contains_names (s : Sig) (n : Nat) : (s.params.map (·.1)).contains n = true ↔ s.Has n := by
  simp [Sig.Has]

/-- One signature fits. -/
def FitsOne (w : World) (pre post : Option Nat) (ref : Option Sig) (s : Sig) : Prop :=
  (∀ r, ref = some r → ∀ n, s.Needs n → r.Has n) ∧
    (∀ p, pre = some p → Asks (w.cond p) s.Has) ∧
    (∀ p, post = some p → Asks (w.cond p) fun n => s.Has n ∨ n = resultName ∨ n = oldName)

theorem verifyOne_iff (w : World) (c : Contract) (ref : Option Sig) (s : Sig) :
    verifyOne w c ref s = true ↔ FitsOne w c.pre c.post ref s := by
  obtain ⟨pre, post, l, sk⟩ := c
  have h1 : (match ref with
      | some r => (required s.params).all fun n => (r.params.map (·.1)).contains n
      | none => true) = true ↔ ∀ r, ref = some r → ∀ n, s.Needs n → r.Has n := by
    cases ref with
    | none => simp
    | some r => simp only [List.all_eq_true, mem_required, contains_names, Option.some.injEq, forall_eq', Sig.Needs]
  have h2 : (match pre with
      | some p => (required (w.cond p)).all fun n => (s.params.map (·.1)).contains n
      | none => true) = true ↔ ∀ p, pre = some p → Asks (w.cond p) s.Has := by
    cases pre with
    | none => simp
    | some p => simp only [List.all_eq_true, mem_required, contains_names, Option.some.injEq, forall_eq', Asks]
  have h3 : (match post with
      | some p => (required (w.cond p)).all fun n => (s.params.map (·.1) ++ [resultName, oldName]).contains n
      | none => true) = true ↔ ∀ p, post = some p → Asks (w.cond p) fun n => s.Has n ∨ n = resultName ∨ n = oldName := by
    cases post with
    | none => simp
    | some p =>
      simp only [List.all_eq_true, mem_required, Option.some.injEq, forall_eq', Asks]
      refine forall_congr' fun n => imp_congr Iff.rfl ?_
      rw [List.contains_iff_mem, List.mem_append, ← List.contains_iff_mem, contains_names]
      simp
  unfold verifyOne FitsOne
  rw [Bool.and_eq_true, Bool.and_eq_true]
  exact (and_congr (and_congr h1 h2) h3).trans and_assoc

theorem verify_iff (w : World) (st : State) (f : Nat) (c : Contract) :
    verify w st c (w.fn f).ref = true ↔ Fits w f ⟨c.pre, c.post, c.skipBody, st.list c.sigs⟩ := by
  unfold verify Fits
  rw [List.all_eq_true]
  refine forall_congr' fun s => ?_
  rw [verifyOne_iff, List.mem_append]
  simp [FitsOne, Option.mem_toList]

/-- Contracts of different functions have different lists, and the lists made exist. -/
structure Sep (st : State) : Prop where
  apart : ∀ f g c d, st.contracts.lookup f = some c → st.contracts.lookup g = some d → c.sigs = d.sigs → f = g
  made : ∀ f c k, st.contracts.lookup f = some c → c.sigs = .own k → k < st.next

/-- No contract has this list. -/
def Unused (st : State) (r : Ref) : Prop := ∀ f c, st.contracts.lookup f = some c → c.sigs ≠ r

theorem alloc_view (st : State) (hm : ∀ f c k, st.contracts.lookup f = some c → c.sigs = .own k → k < st.next) (sigs : List Sig) (g : Nat) :
    (st.alloc sigs).1.view g = st.view g := by
  unfold State.view State.alloc
  cases h : st.contracts.lookup g with
  | none => rfl
  | some c =>
    have : c.sigs ≠ .own st.next := fun e => Nat.lt_irrefl _ (hm g c _ h e)
    simp only [Option.map_some, if_neg this]

theorem alloc_list (st : State) (sigs : List Sig) : (st.alloc sigs).1.list (st.alloc sigs).2 = sigs := by
  simp [State.alloc]

theorem alloc_sep (st : State) (h : Sep st) (sigs : List Sig) : Sep (st.alloc sigs).1 :=
  ⟨h.apart, fun f c k hf hc => Nat.lt_succ_of_lt (h.made f c k hf hc)⟩

theorem alloc_unused (st : State) (h : Sep st) (sigs : List Sig) : Unused (st.alloc sigs).1 (st.alloc sigs).2 :=
  fun f c hf hc => Nat.lt_irrefl _ (h.made f c _ hf hc)

theorem alloc_keeps (st : State) (sigs : List Sig) : (∀ k, (st.alloc sigs).1.list (.user k) = st.list (.user k)) ∧
    (st.alloc sigs).1.contracts = st.contracts ∧ (st.alloc sigs).1.modules = st.modules := ⟨fun _ => rfl, rfl, rfl⟩

theorem lookup_cons_ite (f g : Nat) (c : Contract) (l : List (Nat × Contract)) :
    List.lookup g ((f, c) :: l) = if g = f then some c else l.lookup g := by
  rw [List.lookup_cons]
  by_cases h : g = f
  · simp [h]
  · rw [if_neg h, beq_false_of_ne h]

/-- The outcome of adding a contract. -/
structure Added (w : World) (st st' : State) (ok : Bool) (f : Nat) (c : View) (r : Ref) : Prop where
  sep : Sep st'
  others : ∀ g, g ≠ f → st'.view g = st.view g
  modules : st'.modules = st.modules
  users : ∀ k, Unused st (.user k) → st'.list (.user k) = st.list (.user k)
  unused : ∀ q, Unused st q → q ≠ r → Unused st' q
  yes : Accepted w f (st.view f) c → ok = true ∧ st'.view f = some (joined (st.view f) c)
  no : ¬Accepted w f (st.view f) c → ok = false ∧ st'.view f = st.view f

theorem addContract_added (w : World) (st : State) (f : Nat) (c : Contract) (hs : Sep st) (hu : Unused st c.sigs)
    (hm : ∀ k, c.sigs = .own k → k < st.next) :
    Added w st (addContract w st f c (w.fn f).ref).1 (addContract w st f c (w.fn f).ref).2 f
      ⟨c.pre, c.post, c.skipBody, st.list c.sigs⟩ c.sigs := by
  unfold addContract
  by_cases hv : verify w st c (w.fn f).ref = true
  · rw [if_pos hv]
    have hfit := (verify_iff w st f c).1 hv
    cases hl : st.contracts.lookup f with
    | some old =>
      have hview : st.view f = some ⟨old.pre, old.post, old.skipBody, st.list old.sigs⟩ := by
        unfold State.view; rw [hl]; rfl
      simp only
      by_cases hsame : old.pre = c.pre ∧ old.post = c.post ∧ old.skipBody = c.skipBody
      · rw [if_pos hsame]
        have hacc : Accepted w f (st.view f) ⟨c.pre, c.post, c.skipBody, st.list c.sigs⟩ := by
          refine ⟨hfit, fun o ho => ?_⟩
          rw [hview] at ho
          obtain rfl := Option.some.inj ho
          exact hsame
        refine ⟨⟨hs.apart, hs.made⟩, fun g hg => ?_, rfl, fun k hk => ?_, fun q hq _ => hq, fun _ => ⟨rfl, ?_⟩, fun h => absurd hacc h⟩
        · unfold State.view State.extend
          cases hgl : st.contracts.lookup g with
          | none => simp
          | some d =>
            have : d.sigs ≠ old.sigs := fun e => hg (hs.apart g f d old hgl hl e)
            simp only [Option.map_some, if_neg this]
        · exact if_neg fun e => hk f old hl e.symm
        · rw [hview]
          unfold State.view State.extend
          simp only [hl, Option.map_some, if_true, joined]
      · rw [if_neg hsame]
        refine ⟨hs, fun _ _ => rfl, rfl, fun _ _ => rfl, fun _ h _ => h, fun h => ?_, fun _ => ⟨rfl, rfl⟩⟩
        exact absurd (h.2 _ hview) hsame
    | none =>
      have hview : st.view f = none := by unfold State.view; rw [hl]; rfl
      simp only
      have hacc : Accepted w f (st.view f) ⟨c.pre, c.post, c.skipBody, st.list c.sigs⟩ := by
        refine ⟨hfit, fun o ho => ?_⟩
        rw [hview] at ho
        cases ho
      refine ⟨⟨fun g k d e hg hk hde => ?_, fun g d k hg hd => ?_⟩, fun g hg => ?_, rfl, fun _ _ => rfl, fun q hq hqr g d hg => ?_, fun _ => ⟨rfl, ?_⟩, fun h => absurd hacc h⟩
      · simp only [lookup_cons_ite] at hg hk
        split at hg <;> split at hk
        · rename_i h1 h2; rw [h1, h2]
        · cases hg; exact absurd hde.symm (hu _ _ hk)
        · cases hk; exact absurd hde (hu _ _ hg)
        · exact hs.apart g k d e hg hk hde
      · simp only [lookup_cons_ite] at hg
        split at hg
        · cases hg; exact hm k hd
        · exact hs.made g d k hg hd
      · unfold State.view
        simp only [lookup_cons_ite, if_neg hg]
      · simp only [lookup_cons_ite] at hg
        split at hg
        · cases hg; exact fun e => hqr e.symm
        · exact hq g d hg
      · rw [hview]
        unfold State.view
        simp only [lookup_cons_ite, if_true, Option.map_some, joined]
  · rw [if_neg hv]
    have : ¬Fits w f ⟨c.pre, c.post, c.skipBody, st.list c.sigs⟩ := fun h => hv ((verify_iff w st f c).2 h)
    exact ⟨hs, fun _ _ => rfl, rfl, fun _ _ => rfl, fun _ h _ => h, fun h => absurd h.1 this, fun _ => ⟨rfl, rfl⟩⟩

/-- The same, for a list made just before. -/
theorem alloc_added (w : World) (st : State) (f : Nat) (pre post : Option Nat) (skip : Bool) (sigs : List Sig) (hs : Sep st) :
    Added w st (addContract w (st.alloc sigs).1 f ⟨pre, post, (st.alloc sigs).2, skip⟩ (w.fn f).ref).1
      (addContract w (st.alloc sigs).1 f ⟨pre, post, (st.alloc sigs).2, skip⟩ (w.fn f).ref).2 f ⟨pre, post, skip, sigs⟩ (.own st.next) := by
  have h := addContract_added w (st.alloc sigs).1 f ⟨pre, post, (st.alloc sigs).2, skip⟩ (alloc_sep st hs sigs) (alloc_unused st hs sigs)
    (fun k hk => by cases hk; exact Nat.lt_succ_self _)
  simp only [alloc_list] at h
  have hv := alloc_view st hs.made sigs
  refine ⟨h.sep, fun g hg => (h.others g hg).trans (hv g), h.modules, fun k hk => h.users k hk, h.unused, fun ha => ?_, fun ha => ?_⟩
  · rw [← hv f] at ha ⊢
    exact h.yes ha
  · rw [← hv f] at ha ⊢
    exact h.no ha

/-- The contents of the argument `sig`. -/
def Given.contents (list : Nat → List Sig) : Given → List Sig
  | .nothing => []
  | .one s => [s]
  | .list k => list k

/-- The list that the argument is. -/
def Given.ref : Given → Option Nat
  | .list k => some k
  | _ => none

/-- The outcome of registering a contract. -/
structure Registered (w : World) (st st' : State) (ok : Bool) (f : Nat) (pre post : Option Nat) (skip : Bool) (given : List Sig)
    (passed : Option Nat) : Prop where
  sep : Sep st'
  others : ∀ g, g ≠ f → st'.view g = st.view g
  modules : st'.modules = st.modules
  users : ∀ k, Unused st (.user k) → st'.list (.user k) = st.list (.user k)
  unused : ∀ k, Unused st (.user k) → passed ≠ some k → Unused st' (.user k)
  yes : ∀ sigs, meant w f given = some sigs → Accepted w f (st.view f) ⟨pre, post, skip, sigs⟩ →
    ok = true ∧ st'.view f = some (joined (st.view f) ⟨pre, post, skip, sigs⟩)
  no : (∀ sigs, meant w f given = some sigs → ¬Accepted w f (st.view f) ⟨pre, post, skip, sigs⟩) → ok = false ∧ st'.view f = st.view f

theorem Registered.of_added {w : World} {st st' : State} {ok : Bool} {f : Nat} {pre post : Option Nat} {skip : Bool} {given sigs : List Sig}
    {passed : Option Nat} {r : Ref} (hr : ∀ k, r = .user k → passed = some k) (hm : meant w f given = some sigs)
    (h : Added w st st' ok f ⟨pre, post, skip, sigs⟩ r) : Registered w st st' ok f pre post skip given passed := by
  refine ⟨h.sep, h.others, h.modules, h.users, fun k hk hp => h.unused _ hk fun e => hp (hr k e.symm), fun s hs ha => ?_, fun hn => ?_⟩
  · rw [hm] at hs
    cases hs
    exact h.yes ha
  · exact h.no (hn sigs hm)

theorem internalRegister_registered (w : World) (st : State) (f : Nat) (pre post : Option Nat) (g : Given) (skip : Bool) (hs : Sep st)
    (hu : ∀ k, g = .list k → Unused st (.user k)) :
    Registered w st (internalRegister w st f pre post g skip).1 (internalRegister w st f pre post g skip).2 f pre post skip
      (g.contents fun k => st.list (.user k)) g.ref := by
  have hempty : g.isEmpty st = true ↔ (g.contents fun k => st.list (.user k)) = [] := by
    cases g <;> simp [Given.isEmpty, Given.contents]
  unfold internalRegister
  by_cases hc : (g.isEmpty st && incomplete (w.fn f).ref) = true
  · simp only []
    rw [if_pos hc]
    rw [Bool.and_eq_true, hempty] at hc
    obtain ⟨h1, h2⟩ := hc
    by_cases hst : (w.fn f).stubs = []
    · rw [if_neg (not_not.2 hst)]
      cases hr : (w.fn f).ref with
      | none =>
        rw [if_neg (by simp)]
        have hv := alloc_view st hs.made (w.fn f).stubs
        refine ⟨alloc_sep st hs _, fun g _ => hv g, rfl, fun _ _ => rfl, fun k hk _ => hk, fun s hm => ?_, fun _ => ⟨rfl, hv f⟩⟩
        rw [h1] at hm
        simp [meant, hr, hst] at hm
      | some r =>
        rw [if_pos (by rfl)]
        rw [hr] at h2
        have hm : meant w f (g.contents fun k => st.list (.user k)) = some [] := by
          simp only [incomplete, Bool.not_eq_true'] at h2
          simp [meant, h1, hr, hst, h2]
        have hv := alloc_view st hs.made (w.fn f).stubs
        have h := alloc_added w (st.alloc (w.fn f).stubs).1 f pre post skip [] (alloc_sep st hs _)
        rw [hr] at h
        refine Registered.of_added (r := .own (st.next + 1)) (fun k e => by cases e) hm ⟨h.sep, fun g hg => (h.others g hg).trans (hv g), h.modules,
          fun k hk => h.users k hk, h.unused, fun ha => ?_, fun ha => ?_⟩
        · rw [← hv f] at ha ⊢
          exact h.yes ha
        · rw [← hv f] at ha ⊢
          exact h.no ha
    · rw [if_pos hst]
      have hm : meant w f (g.contents fun k => st.list (.user k)) = some (w.fn f).stubs := by
        cases hr : (w.fn f).ref with
        | none => simp [meant, h1, hr, hst]
        | some r =>
          rw [hr] at h2
          simp only [incomplete, Bool.not_eq_true'] at h2
          simp [meant, h1, hr, h2]
      exact Registered.of_added (r := .own st.next) (fun k e => by cases e) hm (alloc_added w st f pre post skip _ hs)
  · rw [if_neg hc]
    have hm : meant w f (g.contents fun k => st.list (.user k)) = some (g.contents fun k => st.list (.user k)) := by
      unfold meant
      by_cases he : (g.contents fun k => st.list (.user k)) = []
      · rw [if_neg (not_not.2 he), he]
        rw [Bool.and_eq_true, not_and, hempty] at hc
        have := hc he
        cases hr : (w.fn f).ref with
        | none => rw [hr] at this; exact absurd rfl this
        | some r =>
          rw [hr] at this
          simp only [incomplete, Bool.not_eq_true', Bool.not_eq_false] at this
          simp only [this, if_true]
      · rw [if_pos he]
    cases g with
    | nothing => exact Registered.of_added (r := .own st.next) (fun k e => by cases e) hm (alloc_added w st f pre post skip _ hs)
    | one s => exact Registered.of_added (r := .own st.next) (fun k e => by cases e) hm (alloc_added w st f pre post skip _ hs)
    | list k =>
      exact Registered.of_added (r := .user k) (fun k e => by cases e; rfl) hm
        (addContract_added w st f ⟨pre, post, .user k, skip⟩ hs (hu k rfl) (fun _ e => by cases e))

/-- What an automatic registration does. -/
theorem autoRegister_eq (w : World) (st : State) (f : Nat) :
    autoRegister w st f = ((internalRegister w st f none none .nothing true).1,
      (internalRegister w st f none none .nothing true).1.contracts.lookup f) := rfl

/-- Whether the function is registered automatically. -/
theorem getContract_cases (w : World) (st : State) (f : Nat) :
    ((st.contracts.lookup f).isSome = true ∧ (getContract w st f).1 = st) ∨
    (st.contracts.lookup f = none ∧ ((w.fn f).weak = true ∨ (w.fn f).special = true ∨ ¬Belongs w f st.modules) ∧ (getContract w st f).1 = st) ∨
    (st.contracts.lookup f = none ∧ (w.fn f).weak = false ∧ (w.fn f).special = false ∧ Belongs w f st.modules ∧
      (getContract w st f).1 = (internalRegister w st f none none .nothing true).1) := by
  have hnamed : ∀ name, namedModule w st name = true ↔ ∃ m ∈ st.modules, w.modName m = name := fun name => by
    simp [namedModule]
  unfold getContract
  by_cases hw : (w.fn f).weak = true
  · rw [if_pos hw]
    cases hl : st.contracts.lookup f with
    | none => exact .inr (.inl ⟨rfl, .inl hw, rfl⟩)
    | some c => exact .inl ⟨rfl, rfl⟩
  rw [if_neg hw]
  cases hl : st.contracts.lookup f with
  | some c => exact .inl ⟨rfl, rfl⟩
  | none =>
    simp only
    by_cases hsp : (w.fn f).special = true
    · rw [if_pos hsp]
      exact .inr (.inl ⟨trivial, .inr (.inl hsp), rfl⟩)
    rw [if_neg hsp]
    simp only [Bool.not_eq_true] at hw hsp
    cases hc : (w.fn f).classes.bind fun cs => cs.find? (·.1) with
    | some c =>
      simp only
      have hb : Belongs w f st.modules ↔ namedModule w st c.2 = true := by
        unfold Belongs
        rw [hc, hnamed]
      by_cases hn : namedModule w st c.2 = true
      · rw [if_pos hn]
        exact .inr (.inr ⟨trivial, hw, hsp, hb.2 hn, rfl⟩)
      · rw [if_neg hn]
        exact .inr (.inl ⟨trivial, .inr (.inr fun h => hn (hb.1 h)), rfl⟩)
    | none =>
      simp only
      unfold getPlain
      have hb : Belongs w f st.modules ↔ (∃ m ∈ st.modules, (w.fn f).module_ = some m) ∨
          ∃ name, (w.fn f).descriptor = some name ∧ ∃ m ∈ st.modules, w.modName m = name := by
        unfold Belongs
        rw [hc]
      have hmod : inModules st (w.fn f).module_ = true ↔ ∃ m ∈ st.modules, (w.fn f).module_ = some m := by
        cases (w.fn f).module_ with
        | none => simp [inModules]
        | some m => simp [inModules]
      by_cases hm : inModules st (w.fn f).module_ = true
      · rw [if_pos hm]
        exact .inr (.inr ⟨trivial, hw, hsp, hb.2 (.inl (hmod.1 hm)), rfl⟩)
      · rw [if_neg hm]
        cases hd : (w.fn f).descriptor with
        | none =>
          refine .inr (.inl ⟨trivial, .inr (.inr fun h => ?_), rfl⟩)
          rcases hb.1 h with h | ⟨n, h, _⟩
          · exact hm (hmod.2 h)
          · rw [hd] at h; cases h
        | some name =>
          simp only
          by_cases hn : namedModule w st name = true
          · rw [if_pos hn]
            exact .inr (.inr ⟨trivial, hw, hsp, hb.2 (.inr ⟨name, hd, (hnamed name).1 hn⟩), rfl⟩)
          · rw [if_neg hn]
            refine .inr (.inl ⟨trivial, .inr (.inr fun h => ?_), rfl⟩)
            rcases hb.1 h with h | ⟨n, h, h'⟩
            · exact hm (hmod.2 h)
            · rw [hd] at h
              cases h
              exact hn ((hnamed name).2 h')

/-- The answer is what is registered afterwards. -/
theorem getContract_answer (w : World) (st : State) (f : Nat) (hw : (w.fn f).weak = false) :
    (getContract w st f).2 = (getContract w st f).1.contracts.lookup f := by
  unfold getContract
  rw [if_neg (by simp [hw])]
  cases hl : st.contracts.lookup f with
  | some d => exact hl.symm
  | none =>
    simp only
    split
    · exact hl.symm
    · split
      · split
        · rfl
        · exact hl.symm
      · unfold getPlain
        split
        · rfl
        · split
          · split
            · rfl
            · exact hl.symm
          · exact hl.symm

end Verif.Registry
