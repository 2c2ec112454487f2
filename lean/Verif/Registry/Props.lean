import Verif.Registry.Lemmas
/-
Properties of registered contracts.
-/
namespace Verif.Registry

/-- An operation, as an event: a list is what it contained when the program made it. -/
def Op.event (lists : Nat → List Sig) : Op → Event
  | .register f pre post sig skip => .register f pre post (sig.contents lists) skip
  | .modules ms => .modules ms
  | .lookup f => .lookup f
  | .clear => .clear

/-- The list that is passed. -/
def Op.passed : Op → Option Nat
  | .register _ _ _ sig _ => sig.ref
  | _ => none

/-- What holds after each step: `es` are the events so far, the last one first; `ks` are lists not passed so far. -/
structure Inv (w : World) (lists : Nat → List Sig) (es : List Event) (ks : List Nat) (st : State) : Prop where
  sep : Sep st
  holds : ∀ f, Holds w f es (st.view f)
  modules : st.modules = registered es
  fresh : ∀ k ∈ ks, Unused st (.user k) ∧ st.list (.user k) = lists k

theorem view_none {st : State} {f : Nat} : st.view f = none ↔ st.contracts.lookup f = none := by
  simp [State.view]

theorem step_inv (w : World) (lists : Nat → List Sig) (es : List Event) (ks : List Nat) (st : State) (h : Inv w lists es ks st) (op : Op)
    (hp : ∀ k, op.passed = some k → k ∈ ks) (ks' : List Nat) (hsub : ∀ k ∈ ks', k ∈ ks ∧ op.passed ≠ some k) :
    Inv w lists (op.event lists :: es) ks' (step w st op) := by
  cases op with
  | register f pre post sig skip =>
    have hgiven : ∀ k, sig = .list k → Unused st (.user k) := fun k hk => (h.fresh k (hp k (by rw [hk]; rfl))).1
    have hcont : (sig.contents fun k => st.list (.user k)) = sig.contents lists := by
      cases sig with
      | nothing => rfl
      | one s => rfl
      | list k => exact (h.fresh k (hp k rfl)).2
    simp only [step, registerContract, Op.event]
    by_cases hb : (w.fn f).bound = true
    · rw [if_pos hb]
      refine ⟨h.sep, fun g => ?_, h.modules, fun k hk => h.fresh k (hsub k hk).1⟩
      by_cases hg : f = g
      · subst hg; exact .refused (h.holds _) (.inl hb)
      · exact .otherRegister hg (h.holds g)
    · rw [if_neg hb]
      have hr := internalRegister_registered w st f pre post sig skip h.sep hgiven
      rw [hcont] at hr
      refine ⟨hr.sep, fun g => ?_, hr.modules.trans h.modules, fun k hk => ?_⟩
      · by_cases hg : f = g
        · subst hg
          by_cases ha : ∃ sigs, meant w f (sig.contents lists) = some sigs ∧ Accepted w f (st.view f) ⟨pre, post, skip, sigs⟩
          · obtain ⟨sigs, hm, ha⟩ := ha
            rw [(hr.yes sigs hm ha).2]
            exact .accepted (h.holds f) (by simpa using hb) hm ha
          · have hn : ∀ sigs, meant w f (sig.contents lists) = some sigs → ¬Accepted w f (st.view f) ⟨pre, post, skip, sigs⟩ :=
              fun sigs hm ha' => ha ⟨sigs, hm, ha'⟩
            rw [(hr.no hn).2]
            exact .refused (h.holds f) (.inr hn)
        · rw [hr.others g (fun e => hg e.symm)]
          exact .otherRegister hg (h.holds g)
      · have hf := h.fresh k (hsub k hk).1
        exact ⟨hr.unused k hf.1 (hsub k hk).2, (hr.users k hf.1).trans hf.2⟩
  | modules ms =>
    exact ⟨⟨h.sep.apart, h.sep.made⟩, fun f => .modules (h.holds f), congrArg (ms ++ ·) h.modules, fun k hk => h.fresh k (hsub k hk).1⟩
  | clear =>
    refine ⟨⟨fun _ _ _ _ e => (by cases e), fun _ _ _ e => by cases e⟩, fun f => .clear, rfl, fun k hk => ⟨fun _ _ e => (by cases e), ?_⟩⟩
    exact (h.fresh k (hsub k hk).1).2
  | lookup f =>
    simp only [step, Op.event]
    have keep : ∀ {st' : State}, st' = st → (Holds w f (.lookup f :: es) (st.view f)) → Inv w lists (.lookup f :: es) ks' st' := by
      rintro _ rfl hf
      refine ⟨h.sep, fun g => ?_, h.modules, fun k hk => h.fresh k (hsub k hk).1⟩
      by_cases hg : f = g
      · subst hg; exact hf
      · exact .otherLookup hg (h.holds g)
    rcases getContract_cases w st f with ⟨hl, he⟩ | ⟨hl, hwhy, he⟩ | ⟨hl, hw, hsp, hb, he⟩
    · refine keep he ?_
      obtain ⟨c, hc⟩ := Option.isSome_iff_exists.1 hl
      have : st.view f = some ⟨c.pre, c.post, c.skipBody, st.list c.sigs⟩ := by unfold State.view; rw [hc]; rfl
      have hh := h.holds f
      rw [this] at hh ⊢
      exact .found hh
    · refine keep he ?_
      have hv := view_none.2 hl
      have hh := h.holds f
      rw [hv] at hh ⊢
      refine .missing hh ?_
      rw [← h.modules]
      rcases hwhy with h1 | h1 | h1
      · exact .inl h1
      · exact .inr (.inl h1)
      · exact .inr (.inr (.inl h1))
    · rw [he]
      have hv := view_none.2 hl
      have hr := internalRegister_registered w st f none none .nothing true h.sep (fun k e => by cases e)
      have hh := h.holds f
      rw [hv] at hh
      refine ⟨hr.sep, fun g => ?_, hr.modules.trans h.modules, fun k hk => ?_⟩
      · by_cases hg : f = g
        · subst hg
          by_cases ha : ∃ sigs, meant w f [] = some sigs ∧ Fits w f ⟨none, none, true, sigs⟩
          · obtain ⟨sigs, hm, hfit⟩ := ha
            have hacc : Accepted w f (st.view f) ⟨none, none, true, sigs⟩ := ⟨hfit, fun o ho => by rw [hv] at ho; cases ho⟩
            rw [(hr.yes sigs hm hacc).2, hv]
            exact .automatic hh hw hsp (h.modules ▸ hb) hm hfit
          · have hn : ∀ sigs, meant w f [] = some sigs → ¬Fits w f ⟨none, none, true, sigs⟩ := fun sigs hm ha' => ha ⟨sigs, hm, ha'⟩
            rw [(hr.no fun sigs hm hacc => hn sigs hm hacc.1).2, hv]
            exact .missing hh (.inr (.inr (.inr hn)))
        · rw [hr.others g (fun e => hg e.symm)]
          exact .otherLookup hg (h.holds g)
      · have hf := h.fresh k (hsub k hk).1
        exact ⟨hr.unused k hf.1 (by simp [Given.ref]), (hr.users k hf.1).trans hf.2⟩

theorem run_inv (w : World) (lists : Nat → List Sig) (ops : List Op) : ∀ (es : List Event) (ks : List Nat) (st : State), Inv w lists es ks st →
    (ops.filterMap Op.passed).Nodup → (∀ k ∈ ops.filterMap Op.passed, k ∈ ks) →
    ∃ ks', Inv w lists ((ops.map (Op.event lists)).reverse ++ es) ks' (run w st ops) := by
  induction ops with
  | nil => exact fun es ks st h _ _ => ⟨ks, h⟩
  | cons op ops ih =>
    intro es ks st h hn hk
    have hks : ∀ k, op.passed = some k → k ∈ ks := fun k e => hk k (by rw [List.filterMap_cons, e]; exact List.mem_cons_self)
    have hrest : ∀ k ∈ ops.filterMap Op.passed, k ∈ ks ∧ op.passed ≠ some k := by
      intro k hmem
      cases hp : op.passed with
      | none => exact ⟨hk k (by rw [List.filterMap_cons, hp]; exact hmem), by simp⟩
      | some j =>
        rw [List.filterMap_cons, hp] at hn hk
        refine ⟨hk k (List.mem_cons_of_mem _ hmem), fun e => ?_⟩
        cases e
        exact (List.nodup_cons.1 hn).1 hmem
    have hstep := step_inv w lists es ks st h op hks (ops.filterMap Op.passed) hrest
    have hn' : (ops.filterMap Op.passed).Nodup := by
      cases hp : op.passed with
      | none => rw [List.filterMap_cons, hp] at hn; exact hn
      | some j => rw [List.filterMap_cons, hp] at hn; exact (List.nodup_cons.1 hn).2
    obtain ⟨ks', hfin⟩ := ih _ _ _ hstep hn' (fun k hk => hk)
    refine ⟨ks', ?_⟩
    simpa [run] using hfin

/-! ### The contract a function has -/

/-- C226: after any registrations, lookups and clears, in any order, every function has exactly the contract that the events about it
give: the first accepted one since the last clear, with the signatures of all accepted ones in order. Nothing done about other
functions matters. Partial: every list of signatures is passed at most once (see `shared_list_grows`). -/
theorem registry_exact_partial (w : World) (lists : Nat → List Sig) (ops : List Op) (hn : (ops.filterMap Op.passed).Nodup) (f : Nat) :
    Holds w f (ops.map (Op.event lists)).reverse ((run w (init lists) ops).view f) := by
  have h0 : Inv w lists [] (ops.filterMap Op.passed) (init lists) :=
    ⟨⟨fun _ _ _ _ e => (by cases e), fun _ _ _ e => by cases e⟩, fun _ => .start, rfl, fun k _ => ⟨fun _ _ e => (by cases e), rfl⟩⟩
  obtain ⟨ks, h⟩ := run_inv w lists ops [] _ _ h0 hn (fun k hk => hk)
  have := h.holds f
  rwa [List.append_nil] at this

/-- C226: the events give one contract only. -/
theorem holds_one (w : World) (f : Nat) (es : List Event) (a b : Option View) (ha : Holds w f es a) (hb : Holds w f es b) : a = b := by
  induction ha generalizing b with
  | start => cases hb; rfl
  | clear => cases hb; rfl
  | modules _ ih => cases hb with | modules h => exact ih _ h
  | otherRegister hg _ ih =>
    cases hb with
    | otherRegister _ h => exact ih _ h
    | accepted => exact absurd rfl hg
    | refused => exact absurd rfl hg
  | otherLookup hg _ ih =>
    cases hb with
    | otherLookup _ h => exact ih _ h
    | found => exact absurd rfl hg
    | automatic => exact absurd rfl hg
    | missing => exact absurd rfl hg
  | accepted _ hbd hm hacc ih =>
    cases hb with
    | otherRegister hg _ => exact absurd rfl hg
    | accepted h _ hm' _ =>
      rw [hm] at hm'
      cases hm'
      rw [ih _ h]
    | refused h hwhy =>
      cases ih _ h
      rcases hwhy with hwhy | hwhy
      · rw [hbd] at hwhy; cases hwhy
      · exact absurd hacc (hwhy _ hm)
  | refused _ hwhy ih =>
    cases hb with
    | otherRegister hg _ => exact absurd rfl hg
    | accepted h hbd hm hacc =>
      cases ih _ h
      rcases hwhy with hwhy | hwhy
      · rw [hbd] at hwhy; cases hwhy
      · exact absurd hacc (hwhy _ hm)
    | refused h _ => exact ih _ h
  | found _ ih =>
    cases hb with
    | otherLookup hg _ => exact absurd rfl hg
    | found h => exact ih _ h
    | automatic h => cases ih _ h
    | missing h => cases ih _ h
  | automatic _ hw hsp hbel hm hfit ih =>
    cases hb with
    | otherLookup hg _ => exact absurd rfl hg
    | found h => cases ih _ h
    | automatic _ _ _ _ hm' => rw [hm] at hm'; cases hm'; rfl
    | missing _ hwhy =>
      rcases hwhy with h | h | h | h
      · rw [hw] at h; cases h
      · rw [hsp] at h; cases h
      · exact absurd hbel h
      · exact absurd hfit (h _ hm)
  | missing _ hwhy ih =>
    cases hb with
    | otherLookup hg _ => exact absurd rfl hg
    | found h => cases ih _ h
    | missing _ _ => rfl
    | automatic _ hw hsp hbel hm hfit =>
      rcases hwhy with h | h | h | h
      · rw [hw] at h; cases h
      · rw [hsp] at h; cases h
      · exact absurd hbel h
      · exact absurd hfit (h _ hm)

/-! A small world: functions 0 and 1 with a parameter 5, in modules 0 and 1; function 2 is an `__init__` in module 0. -/
def sigA : Sig := ⟨[(5, true)], true⟩
def sigB : Sig := ⟨[(5, false)], true⟩
def small : World where
  fn f := { ref := some sigA, module_ := some (f % 2), special := f == 2 }
  modName m := m
  cond _ := [(5, true)]
def noLists : Nat → List Sig := fun k => if k = 0 then [sigB] else []

example : (run small (init noLists) [.register 0 (some 9) none (.list 0) false, .register 1 none none (.one sigA) true,
      .register 0 (some 9) none (.one sigA) false, .register 0 none none (.one sigA) false]).view 0
    = some ⟨some 9, none, false, [sigB, sigA]⟩ := by decide
example : ((([.register 0 (some 9) none (.list 0) false, .register 1 none none (.one sigA) true] : List Op)).filterMap Op.passed).Nodup := by decide

/-- Disagreement: if two functions are registered with the same list of signatures, a signature registered for one of them becomes one
of the other. -/
theorem shared_list_grows : (run small (init noLists) [.register 0 none none (.list 0) true, .register 1 none none (.list 0) true]).view 1
      = some ⟨none, none, true, [sigB]⟩ ∧
    (run small (init noLists) [.register 0 none none (.list 0) true, .register 1 none none (.list 0) true,
      .register 0 none none (.one sigA) true]).view 1 = some ⟨none, none, true, [sigB, sigA]⟩ := by decide

/-- Disagreement: the list that the program passes is changed by later registrations. -/
theorem own_list_changes : (run small (init noLists) [.register 0 none none (.list 0) true,
    .register 0 none none (.one sigA) true]).list (.user 0) = [sigB, sigA] := by decide

/-! ### Contracts stay -/

/-- The lists of the contracts have been made. -/
def Made (st : State) : Prop := ∀ f c k, st.contracts.lookup f = some c → c.sigs = .own k → k < st.next

/-- `b` comes after `a`. -/
structure Grows (a b : State) : Prop where
  made : Made b
  keeps : ∀ f v, a.view f = some v → ∃ v', b.view f = some v' ∧ v.Alike v' ∧ v.sigs <+: v'.sigs

theorem Grows.refl {a : State} (h : Made a) : Grows a a := ⟨h, fun _ v hv => ⟨v, hv, ⟨rfl, rfl, rfl⟩, List.prefix_rfl⟩⟩

theorem Grows.trans {a b c : State} (h : Grows a b) (h' : Grows b c) : Grows a c := by
  refine ⟨h'.made, fun f v hv => ?_⟩
  obtain ⟨v1, h1, ⟨p1, q1, r1⟩, s1⟩ := h.keeps f v hv
  obtain ⟨v2, h2, ⟨p2, q2, r2⟩, s2⟩ := h'.keeps f v1 h1
  exact ⟨v2, h2, ⟨p1.trans p2, q1.trans q2, r1.trans r2⟩, s1.trans s2⟩

theorem alloc_grows (st : State) (h : Made st) (sigs : List Sig) : Grows st (st.alloc sigs).1 := by
  refine ⟨fun f c k hf hc => Nat.lt_succ_of_lt (h f c k hf hc), fun f v hv => ⟨v, ?_, ⟨rfl, rfl, rfl⟩, List.prefix_rfl⟩⟩
  rw [alloc_view st h]
  exact hv

theorem addContract_grows (w : World) (st : State) (f : Nat) (c : Contract) (ref : Option Sig) (h : Made st)
    (hm : ∀ k, c.sigs = .own k → k < st.next) : Grows st (addContract w st f c ref).1 := by
  unfold addContract
  split
  · split
    · split
      · rename_i old hl _
        refine ⟨h, fun g v hv => ?_⟩
        unfold State.view at hv
        cases hg : st.contracts.lookup g with
        | none => rw [hg] at hv; cases hv
        | some d =>
          rw [hg] at hv
          cases hv
          refine ⟨⟨d.pre, d.post, d.skipBody, (st.extend old.sigs (st.list c.sigs)).list d.sigs⟩, ?_, ⟨rfl, rfl, rfl⟩, ?_⟩
          · unfold State.view
            rw [show (st.extend old.sigs (st.list c.sigs)).contracts = st.contracts from rfl, hg]
            rfl
          · simp only [State.extend]
            split
            · exact List.prefix_append _ _
            · exact List.prefix_rfl
      · exact .refl h
    · rename_i hl
      refine ⟨fun g d k hg hd => ?_, fun g v hv => ⟨v, ?_, ⟨rfl, rfl, rfl⟩, List.prefix_rfl⟩⟩
      · simp only [lookup_cons_ite] at hg
        split at hg
        · cases hg; exact hm k hd
        · exact h g d k hg hd
      · by_cases hgf : g = f
        · subst hgf
          rw [view_none.2 hl] at hv
          cases hv
        · unfold State.view at hv ⊢
          simp only [lookup_cons_ite, if_neg hgf]
          exact hv
  · exact .refl h

theorem internalRegister_grows (w : World) (st : State) (f : Nat) (pre post : Option Nat) (g : Given) (skip : Bool) (h : Made st) :
    Grows st (internalRegister w st f pre post g skip).1 := by
  have hnew : ∀ (st : State) (_ : Made st) (sigs : List Sig),
      Grows st (addContract w (st.alloc sigs).1 f ⟨pre, post, (st.alloc sigs).2, skip⟩ (w.fn f).ref).1 := fun st h sigs =>
    (alloc_grows st h sigs).trans (addContract_grows w _ f _ _ (alloc_grows st h sigs).made (fun k hk => by cases hk; exact Nat.lt_succ_self _))
  unfold internalRegister
  simp only []
  split
  · split
    · exact hnew st h _
    · split
      · exact (alloc_grows st h _).trans (hnew _ (alloc_grows st h _).made _)
      · exact alloc_grows st h _
  · cases g with
    | nothing => exact hnew st h _
    | one s => exact hnew st h _
    | list k => exact addContract_grows w st f _ _ h (fun _ e => by cases e)

theorem step_grows (w : World) (st : State) (op : Op) (h : Made st) (hc : op ≠ .clear) : Grows st (step w st op) := by
  cases op with
  | register f pre post sig skip =>
    simp only [step, registerContract]
    split
    · exact .refl h
    · exact internalRegister_grows w st f pre post sig skip h
  | modules ms => exact ⟨h, fun f v hv => ⟨v, hv, ⟨rfl, rfl, rfl⟩, List.prefix_rfl⟩⟩
  | clear => exact absurd rfl hc
  | lookup f =>
    simp only [step]
    rcases getContract_cases w st f with ⟨_, he⟩ | ⟨_, _, he⟩ | ⟨_, _, _, _, he⟩
    · rw [he]; exact .refl h
    · rw [he]; exact .refl h
    · rw [he]; exact internalRegister_grows w st f none none .nothing true h

theorem made_step (w : World) (st : State) (op : Op) (h : Made st) : Made (step w st op) := by
  by_cases hc : op = .clear
  · subst hc
    exact fun _ _ _ e => by cases e
  · exact (step_grows w st op h hc).made

theorem made_run (w : World) (ops : List Op) : ∀ st, Made st → Made (run w st ops) := by
  induction ops with
  | nil => exact fun _ h => h
  | cons op ops ih => exact fun st h => ih _ (made_step w st op h)

/-- C227: until the next clear, a function keeps the contract that it has: the conditions and whether the body is skipped never change,
and signatures are only added at the end. This holds whatever lists are passed. -/
theorem contract_stays (w : World) (lists : Nat → List Sig) (before after : List Op) (hc : Op.clear ∉ after) (f : Nat) (v : View)
    (h : (run w (init lists) before).view f = some v) :
    ∃ v', (run w (init lists) (before ++ after)).view f = some v' ∧ v.Alike v' ∧ v.sigs <+: v'.sigs := by
  have hm : Made (run w (init lists) before) := made_run w before _ fun _ _ _ e => by cases e
  have main : ∀ (ops : List Op) (st : State), Made st → Op.clear ∉ ops → Grows st (run w st ops) := by
    intro ops
    induction ops with
    | nil => exact fun _ h _ => .refl h
    | cons op ops ih =>
      intro st hst hcl
      have h1 := step_grows w st op hst (fun e => hcl (by rw [e]; exact List.mem_cons_self))
      exact h1.trans (ih _ h1.made (fun h => hcl (List.mem_cons_of_mem _ h)))
  have := (main after _ hm hc).keeps f v h
  rwa [show run w (init lists) (before ++ after) = run w (run w (init lists) before) after from List.foldl_append ..]

example : (run small (init noLists) [.register 0 (some 9) none .nothing false]).view 0 = some ⟨some 9, none, false, []⟩ ∧
    Op.clear ∉ ([.modules [0], .lookup 0, .register 0 none none .nothing true] : List Op) := by decide

/-- C227: to ask for a contract twice gives the same answer, and changes nothing the second time. -/
theorem lookup_repeats (w : World) (st : State) (f : Nat) (c : Contract) (h : (getContract w st f).2 = some c) :
    getContract w (getContract w st f).1 f = ((getContract w st f).1, some c) := by
  have hw : (w.fn f).weak = false := by
    cases hw : (w.fn f).weak with
    | false => rfl
    | true =>
      unfold getContract at h
      rw [if_pos hw] at h
      cases h
  have hl := (getContract_answer w st f hw).symm.trans h
  generalize (getContract w st f).1 = st' at hl
  unfold getContract
  rw [if_neg (by simp [hw]), hl]

example : (getContract small (run small (init noLists) [.modules [0]]) 0).2 = some ⟨none, none, .own 0, true⟩ := by decide

/-- Disagreement: the documentation of `register_modules` says that a function of a registered module whose body should be run can be
registered with `skip_body=False`. If its contract has been asked for before, the registration is refused, and its body is skipped. -/
theorem lookup_blocks_registration :
    (registerContract small (run small (init noLists) [.modules [0]]) 0 none none .nothing false).2 = true ∧
    (registerContract small (run small (init noLists) [.modules [0], .lookup 0]) 0 none none .nothing false).2 = false ∧
    (run small (init noLists) [.modules [0], .lookup 0, .register 0 none none .nothing false, .lookup 0]).view 0
      = some ⟨none, none, true, []⟩ := by decide

/-! ### Automatic registration -/

/-- A registration of the function has been tried since the last clear. -/
def tried (f : Nat) : List Event → Bool
  | [] => false
  | .register g .. :: before => g == f || tried f before
  | .clear :: _ => false
  | _ :: before => tried f before

/-- The modules only grow until the next clear. -/
theorem belongs_mono (w : World) (f : Nat) (ms ms' : List Nat) (h : ∀ m ∈ ms, m ∈ ms') (hb : Belongs w f ms) : Belongs w f ms' := by
  unfold Belongs at hb ⊢
  split at hb
  · obtain ⟨m, hm, e⟩ := hb
    exact ⟨m, h m hm, e⟩
  · rcases hb with ⟨m, hm, e⟩ | ⟨n, hn, m, hm, e⟩
    · exact .inl ⟨m, h m hm, e⟩
    · exact .inr ⟨n, hn, m, h m hm, e⟩

theorem holds_automatic (w : World) (f : Nat) (es : List Event) (v : View) (h : Holds w f es (some v)) (ht : tried f es = false) :
    Belongs w f (registered es) ∧ (w.fn f).special = false ∧ v.pre = none ∧ v.post = none ∧ v.skipBody = true ∧ meant w f [] = some v.sigs := by
  generalize hov : some v = ov at h
  induction h generalizing v with
  | start => cases hov
  | clear => cases hov
  | modules _ ih =>
    obtain ⟨h1, h2⟩ := ih v ht hov
    exact ⟨belongs_mono w f _ _ (fun m hm => List.mem_append_right _ hm) h1, h2⟩
  | otherRegister hg _ ih =>
    simp only [tried, Bool.or_eq_false_iff] at ht
    exact ih v ht.2 hov
  | otherLookup _ _ ih => exact ih v ht hov
  | accepted => simp [tried] at ht
  | refused => simp [tried] at ht
  | found _ ih => exact ih v ht hov
  | automatic _ hw hsp hb hm hfit =>
    cases hov
    exact ⟨hb, hsp, rfl, rfl, rfl, hm⟩
  | missing => cases hov

/-- C228: a function that nobody registered since the last clear has a contract only if its module has been registered since then and
it is none of `__init__`, `__init_subclass__` and `__new__`. The contract then has no conditions, and the body is skipped. Partial: lists
are passed at most once. -/
theorem automatic_only_partial (w : World) (lists : Nat → List Sig) (ops : List Op) (hn : (ops.filterMap Op.passed).Nodup) (f : Nat) (v : View)
    (h : (run w (init lists) ops).view f = some v) (ht : tried f (ops.map (Op.event lists)).reverse = false) :
    Belongs w f (registered (ops.map (Op.event lists)).reverse) ∧ (w.fn f).special = false ∧ v.pre = none ∧ v.post = none ∧
      v.skipBody = true ∧ meant w f [] = some v.sigs := by
  have hh := registry_exact_partial w lists ops hn f
  rw [h] at hh
  exact holds_automatic w f _ v hh ht

example : (run small (init noLists) [.register 1 none none .nothing false, .modules [0], .lookup 0]).view 0 = some ⟨none, none, true, []⟩ ∧
    tried 0 [.lookup 0, .modules [0], .register 1 none none [] false] = false := by decide

/-- C228: and it does have one as soon as it is called (or asked for), if there is a signature that fits. -/
theorem automatic_always_partial (w : World) (lists : Nat → List Sig) (ops : List Op) (hn : (ops.filterMap Op.passed).Nodup) (f : Nat)
    (hw : (w.fn f).weak = false) (hsp : (w.fn f).special = false) (hb : Belongs w f (registered (ops.map (Op.event lists)).reverse))
    (sigs : List Sig) (hm : meant w f [] = some sigs) (hfit : Fits w f ⟨none, none, true, sigs⟩) :
    ∃ c, (getContract w (run w (init lists) ops) f).2 = some c := by
  have hview : ∃ v, (run w (init lists) (ops ++ [.lookup f])).view f = some v := by
    have h1 := registry_exact_partial w lists ops hn f
    have h2 := registry_exact_partial w lists (ops ++ [.lookup f]) (by rw [List.filterMap_append]; simpa [Op.passed, List.filterMap_cons] using hn) f
    simp only [List.map_append, List.map_cons, List.map_nil, List.reverse_append, List.reverse_cons, List.reverse_nil, List.nil_append,
      List.singleton_append, Op.event] at h2
    cases hv : (run w (init lists) ops).view f with
    | none =>
      rw [hv] at h1
      exact ⟨_, holds_one w f _ _ _ h2 (.automatic h1 hw hsp hb hm hfit)⟩
    | some v =>
      rw [hv] at h1
      exact ⟨_, holds_one w f _ _ _ h2 (.found h1)⟩
  obtain ⟨v, hv⟩ := hview
  rw [show run w (init lists) (ops ++ [.lookup f]) = (getContract w (run w (init lists) ops) f).1 by simp [run, step]] at hv
  generalize run w (init lists) ops = st at hv
  cases hc : (getContract w st f).2 with
  | some c => exact ⟨c, rfl⟩
  | none =>
    exfalso
    have hnone := (getContract_answer w st f hw).symm.trans hc
    rw [view_none.2 hnone] at hv
    cases hv

example : Belongs small 0 (registered [.modules [0]]) ∧ (small.fn 0).special = false ∧ meant small 0 [] = some [] ∧
    (getContract small (run small (init noLists) [.modules [0]]) 0).2 = some ⟨none, none, .own 0, true⟩ := by
  refine ⟨?_, by decide, by decide, by decide⟩
  exact .inl ⟨0, by decide, rfl⟩

/-- C228: `__init__` is never registered automatically. -/
example : (getContract small (run small (init noLists) [.modules [0]]) 2).2 = none := by decide

end Verif.Registry
