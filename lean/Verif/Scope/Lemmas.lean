import Verif.Scope.Spec

namespace Verif.Scope

variable {cfg : Cfg}

/-! ## Layers -/

theorem layers_append (A B : List (Fn × Fn)) (f : Fn) : layers (A ++ B) f = layers A f ++ layers B f := by
  induction A with
  | nil => rfl
  | cons p A ih =>
    obtain ⟨o, n⟩ := p
    simp only [List.cons_append, layers]
    split
    · rw [ih]; rfl
    · exact ih

theorem layers_eq_nil {A : List (Fn × Fn)} {f : Fn} (h : f ∉ A.map (·.1)) : layers A f = [] := by
  induction A with
  | nil => rfl
  | cons p A ih =>
    obtain ⟨o, n⟩ := p
    simp only [List.map_cons, List.mem_cons, not_or] at h
    rw [layers, if_neg (fun e => h.1 e.symm), ih h.2]

theorem mem_layers {A : List (Fn × Fn)} {f g : Fn} (h : g ∈ layers A f) : (f, g) ∈ A := by
  induction A with
  | nil => cases h
  | cons p A ih =>
    obtain ⟨o, n⟩ := p
    rw [layers] at h
    split at h
    · rename_i ho
      rcases List.mem_cons.1 h with rfl | h
      · rw [ho]; exact List.mem_cons_self ..
      · exact List.mem_cons_of_mem _ (ih h)
    · exact List.mem_cons_of_mem _ (ih h)

theorem below_none {code : Fn → Code} {f : Fn} {c : Code} {L : List Fn} (h : ∀ g ∈ L, code g ≠ c) :
    below code f c L = none := by
  induction L with
  | nil => rfl
  | cons g L ih =>
    rw [below, if_neg (h g (List.mem_cons_self ..)), ih (fun x hx => h x (List.mem_cons_of_mem _ hx))]

/-! ## Tables -/

/-- The entries of the tables for an opcode are these modules from the first table on, and then none. -/
def Packed (op : Nat) (L : List Mod) (ts : List (Nat → Option Mod)) : Prop :=
  ∃ n, ts.map (fun t => t op) = L.map some ++ List.replicate n none

theorem packed_place (m : Mod) (op : Nat) (L : List Mod) (ts : List (Nat → Option Mod)) (h : Packed op L ts) :
    Packed op (L ++ [m]) (place m op ts) := by
  induction ts generalizing L with
  | nil =>
    obtain ⟨n, hn⟩ := h
    cases L with
    | cons x L => simp at hn
    | nil => exact ⟨0, by simp [place]⟩
  | cons t ts ih =>
    obtain ⟨n, hn⟩ := h
    cases L with
    | nil =>
      cases n with
      | zero => simp at hn
      | succ n =>
        simp only [List.map_cons, List.map_nil, List.nil_append, List.replicate_succ, List.cons.injEq] at hn
        refine ⟨n, ?_⟩
        simp [place, hn.1, hn.2]
    | cons x L =>
      simp only [List.map_cons, List.cons_append, List.cons.injEq] at hn
      obtain ⟨n', hn'⟩ := ih L ⟨n, hn.2⟩
      refine ⟨n', ?_⟩
      simp [place, hn.1, hn']

theorem packed_place_other (m : Mod) (op op' : Nat) (hne : op' ≠ op) (L : List Mod) (ts : List (Nat → Option Mod))
    (h : Packed op' L ts) : Packed op' L (place m op ts) := by
  induction ts generalizing L with
  | nil =>
    obtain ⟨n, hn⟩ := h
    cases L with
    | cons x L => simp at hn
    | nil => exact ⟨1, by simp [place, hne]⟩
  | cons t ts ih =>
    by_cases ht : t op = none
    · obtain ⟨n, hn⟩ := h
      refine ⟨n, ?_⟩
      simp only [place, ht, if_true, List.map_cons, if_neg hne] at hn ⊢
      exact hn
    · simp only [place, ht, if_false]
      obtain ⟨n, hn⟩ := h
      cases L with
      | nil =>
        cases n with
        | zero => simp at hn
        | succ n =>
          simp only [List.map_cons, List.map_nil, List.nil_append, List.replicate_succ, List.cons.injEq] at hn
          obtain ⟨n', hn'⟩ := ih [] ⟨n, by simpa using hn.2⟩
          refine ⟨n' + 1, ?_⟩
          simp only [List.map_cons, List.map_nil, List.nil_append, List.replicate_succ, hn.1, List.cons.injEq,
            true_and] at hn' ⊢
          exact hn'
      | cons x L =>
        simp only [List.map_cons, List.cons_append, List.cons.injEq] at hn
        obtain ⟨n', hn'⟩ := ih L ⟨n, hn.2⟩
        refine ⟨n', ?_⟩
        simp [hn.1, hn']

theorem placeAll_eq (m : Mod) (ops : List Nat) (h : ∀ op ∈ ops, op < 256) : ∀ s : State,
    placeAll cfg m ops s = { s with
      traceAll := s.traceAll || ops.any (fun op => !cfg.traceable op)
      tables := ops.foldl (fun ts op => place m op ts) s.tables } := by
  induction ops with
  | nil => intro s; simp [placeAll]
  | cons op ops ih =>
    intro s
    have h0 := h op (List.mem_cons_self ..)
    rw [placeAll, if_neg (by omega), ih (fun o ho => h o (List.mem_cons_of_mem _ ho))]
    simp [Bool.or_assoc]

theorem packed_foldl (m : Mod) (op : Nat) (ops : List Nat) (hn : ops.Nodup) : ∀ (L : List Mod)
    (ts : List (Nat → Option Mod)), Packed op L ts →
    Packed op (L ++ if op ∈ ops then [m] else []) (ops.foldl (fun ts op => place m op ts) ts) := by
  induction ops with
  | nil => intro L ts h; simpa using h
  | cons o ops ih =>
    intro L ts h
    obtain ⟨ho, hn'⟩ := List.nodup_cons.1 hn
    simp only [List.foldl_cons]
    by_cases he : op = o
    · subst he
      have := ih hn' (L ++ [m]) _ (packed_place m op L ts h)
      simpa [ho] using this
    · have := ih hn' L _ (packed_place_other m o op he L ts h)
      simpa [he] using this

/-- Clearing a module from the tables. -/
theorem packed_clear (m : Mod) (op : Nat) (L : List Mod) (b : Bool) (ts : List (Nat → Option Mod)) (hm : m ∉ L)
    (h : Packed op (L ++ if b then [m] else []) ts) :
    Packed op L (ts.map (fun t => fun o => if t o = some m then none else t o)) := by
  obtain ⟨n, hn⟩ := h
  have h1 : (ts.map (fun t => fun o => if t o = some m then none else t o)).map (fun t => t op) =
      (ts.map (fun t => t op)).map (fun x => if x = some m then none else x) := by
    simp [List.map_map, Function.comp_def]
  have h2 : (L.map some).map (fun x => if x = some m then none else x) = L.map some := by
    rw [List.map_map]
    apply List.map_congr_left
    intro x hx
    have : x ≠ m := fun e => hm (e ▸ hx)
    simp [this]
  refine ⟨n + if b then 1 else 0, ?_⟩
  rw [h1, hn]
  cases b with
  | false => simp [h2]
  | true =>
    simp only [if_true, List.map_append, h2, List.map_cons, List.map_nil, List.map_replicate, reduceCtorEq, if_false,
      List.append_assoc, List.cons_append, List.nil_append]
    rw [← List.replicate_succ]

theorem packed_top (op : Nat) (L : List Mod) (t : Nat → Option Mod) (ts : List (Nat → Option Mod))
    (h : Packed op L (t :: ts)) : t op = L.head? := by
  obtain ⟨n, hn⟩ := h
  cases L with
  | nil =>
    cases n with
    | zero => simp at hn
    | succ n => simp [List.replicate_succ] at hn; simp [hn.1]
  | cons x L => simp at hn; simp [hn.1]

theorem packed_filterMap (op : Nat) (L : List Mod) (ts : List (Nat → Option Mod)) (h : Packed op L ts) :
    ts.filterMap (fun t => t op) = L := by
  obtain ⟨n, hn⟩ := h
  have : ts.filterMap (fun t => t op) = (ts.map (fun t => t op)).filterMap id := by
    rw [List.filterMap_map]; rfl
  rw [this, hn, List.filterMap_append]
  have h2 : (List.replicate n (none : Option Mod)).filterMap id = [] := by
    rw [List.filterMap_eq_nil_iff]; intro a ha; rw [List.eq_of_mem_replicate ha]; rfl
  rw [h2, List.append_nil, List.filterMap_map]
  induction L with
  | nil => rfl
  | cons x L _ => simp

/-! ## The invariant -/

/-- The state represents what is in force. -/
structure Inv (cfg : Cfg) (c : Ctx) (s : State) : Prop where
  vars : s.vars = c.vars
  over_some : ∀ f g rest, layers c.patches f = g :: rest → s.overrides f = some g
  over_none : ∀ f, layers c.patches f = [] → s.overrides f = none ∨ s.overrides f = some f
  next : ∀ k f, s.nextfn k f = below cfg.code f k (layers c.patches f)
  ok : PatchesOk cfg c.patches
  modules : s.modules = c.modules
  nodup : c.modules.Nodup
  tables : ∀ op, Packed op (handlersFor cfg c.modules op) s.tables
  traceAll : s.traceAll = true ↔ ∃ m ∈ c.modules, ∃ op ∈ cfg.wanted m, cfg.traceable op = false
  enabled : s.enabled = c.tracing
  tool : s.tool = c.tool
  space : s.space = c.space
  enforcing : s.enforcing = c.enforcing
  engaged : s.engaged = c.engaged
  path : s.path = c.path
  hooks : s.hooks = c.hooks

theorem inv_initial : Inv cfg {} initial := by
  constructor <;> simp [initial, layers, below, PatchesOk, handlersFor, Packed]

theorem Inv.prev {c : Ctx} {s : State} (h : Inv cfg c s) (f : Fn) :
    (s.overrides f).getD f = (layers c.patches f).head?.getD f := by
  cases hl : layers c.patches f with
  | nil => rcases h.over_none f hl with h | h <;> simp [h]
  | cons g rest => simp [h.over_some f g rest hl]

theorem inv_add {c : Ctx} (ps : List (Fn × Fn)) : ∀ {s : State} {P : List (Fn × Fn)},
    Inv cfg { c with patches := P } s → PatchesOk cfg (ps.reverse ++ P) →
    ∃ s', addPatches cfg ps s = .ok s' ∧ Inv cfg { c with patches := ps.reverse ++ P } s' := by
  induction ps with
  | nil => intro s P h _; exact ⟨s, rfl, h⟩
  | cons p ps ih =>
    intro s P h hok
    obtain ⟨orig, new⟩ := p
    have hok' : PatchesOk cfg ((orig, new) :: P) := by
      simp only [List.reverse_cons, List.append_assoc, List.cons_append, List.nil_append] at hok
      exact ⟨(List.pairwise_append.1 hok.1).2.1, fun q hq => hok.2 q (List.mem_append_right _ hq)⟩
    have hprev := h.prev orig
    have hne : (s.overrides orig).getD orig ≠ new := by
      rw [hprev]
      cases hl : layers P orig with
      | nil => simp; exact fun e => hok'.2 (orig, new) (List.mem_cons_self ..) e.symm
      | cons g rest =>
        simp
        intro e
        have hm : (orig, g) ∈ P := mem_layers (by rw [hl]; exact List.mem_cons_self ..)
        exact (List.pairwise_cons.1 hok'.1).1 (orig, g) hm rfl (by rw [e])
    simp only [addPatches, if_neg hne]
    rw [hprev]
    have hstep : Inv cfg { c with patches := (orig, new) :: P } { s with
        nextfn := fun k f => if k = cfg.code new ∧ f = orig then some ((layers P orig).head?.getD orig) else s.nextfn k f
        overrides := fun f => if f = orig then some new else s.overrides f } := by
      refine { h with over_some := ?_, over_none := ?_, next := ?_, ok := hok' }
      · intro f g rest hl
        simp only [layers] at hl
        by_cases hf : orig = f
        · subst hf
          simp only [if_true, List.cons.injEq] at hl
          simp [hl.1]
        · rw [if_neg hf] at hl
          simp only [if_neg (fun e => hf e.symm : ¬ f = orig)]
          exact h.over_some f g rest hl
      · intro f hl
        simp only [layers] at hl
        by_cases hf : orig = f
        · rw [if_pos hf] at hl; cases hl
        · rw [if_neg hf] at hl
          simp only [if_neg (fun e => hf e.symm : ¬ f = orig)]
          exact h.over_none f hl
      · intro k f
        simp only [layers]
        by_cases hf : orig = f
        · subst hf
          simp only [if_true, and_true, below]
          by_cases hk : k = cfg.code new
          · simp [hk]
          · rw [if_neg hk, if_neg (fun e => hk e.symm)]
            exact h.next k orig
        · rw [if_neg hf, if_neg (fun e => hf e.2.symm)]
          exact h.next k f
    obtain ⟨s', hs', hinv⟩ := ih hstep (by simpa using hok)
    exact ⟨s', hs', by simpa using hinv⟩

theorem inv_pop1 {c : Ctx} {s : State} {A P : List (Fn × Fn)} {orig new : Fn}
    (h : Inv cfg { c with patches := A ++ (orig, new) :: P } s) (hA : orig ∉ A.map (·.1)) :
    s.overrides orig = some new ∧ s.nextfn (cfg.code new) orig = some ((layers P orig).head?.getD orig) ∧
      Inv cfg { c with patches := A ++ P } { s with
        nextfn := fun k f => if k = cfg.code new ∧ f = orig then none else s.nextfn k f
        overrides := fun f => if f = orig then some ((layers P orig).head?.getD orig) else s.overrides f } := by
  have hl : layers (A ++ (orig, new) :: P) orig = new :: layers P orig := by
    rw [layers_append, layers_eq_nil hA]; simp [layers]
  have hl' : layers (A ++ P) orig = layers P orig := by
    rw [layers_append, layers_eq_nil hA]; rfl
  have hlo : ∀ f, f ≠ orig → layers (A ++ (orig, new) :: P) f = layers (A ++ P) f := by
    intro f hf
    rw [layers_append, layers_append, layers, if_neg (fun e => hf e.symm)]
  have hpw := h.ok.1
  have hcode : ∀ g ∈ layers P orig, cfg.code g ≠ cfg.code new := by
    intro g hg e
    have hm := mem_layers hg
    exact (List.pairwise_cons.1 (List.pairwise_append.1 hpw).2.1).1 (orig, g) hm rfl e.symm
  refine ⟨h.over_some orig _ _ hl, ?_, ?_⟩
  · rw [h.next, hl]; simp [below]
  · refine { h with over_some := ?_, over_none := ?_, next := ?_, ok := ?_ }
    · intro f g rest hf
      simp only at hf ⊢
      by_cases he : f = orig
      · subst he
        rw [hl'] at hf
        simp [hf]
      · rw [if_neg he]
        exact h.over_some f g rest (by rw [hlo f he]; exact hf)
    · intro f hf
      simp only at hf ⊢
      by_cases he : f = orig
      · subst he
        rw [hl'] at hf
        simp [hf]
      · rw [if_neg he]
        exact h.over_none f (by rw [hlo f he]; exact hf)
    · intro k f
      simp only
      by_cases he : f = orig
      · subst he
        rw [hl']
        by_cases hk : k = cfg.code new
        · subst hk
          simp only [and_self, if_true]
          exact (below_none hcode).symm
        · rw [if_neg (fun e => hk e.1)]
          have := h.next k f
          rw [hl, below, if_neg (fun e => hk e.symm)] at this
          exact this
      · rw [if_neg (fun e => he e.2)]
        have := h.next k f
        rw [hlo f he] at this
        exact this
    · constructor
      · have hp := List.pairwise_append.1 hpw
        exact List.pairwise_append.2 ⟨hp.1, (List.pairwise_cons.1 hp.2.1).2,
          fun a ha b hb => hp.2.2 a ha b (List.mem_cons_of_mem _ hb)⟩
      · intro p hp
        apply h.ok.2
        rcases List.mem_append.1 hp with hp | hp
        · exact List.mem_append_left _ hp
        · exact List.mem_append_right _ (List.mem_cons_of_mem _ hp)

theorem inv_pop {c : Ctx} (ps : List (Fn × Fn)) : ∀ {s : State} {P : List (Fn × Fn)},
    Inv cfg { c with patches := ps.reverse ++ P } s → (ps.map (·.1)).Nodup →
    ∃ s', popPatches cfg ps s = (s', none) ∧ Inv cfg { c with patches := P } s' := by
  induction ps with
  | nil => intro s P h _; exact ⟨s, rfl, h⟩
  | cons p ps ih =>
    intro s P h hn
    obtain ⟨orig, new⟩ := p
    simp only [List.map_cons, List.nodup_cons] at hn
    have h' : Inv cfg { c with patches := ps.reverse ++ (orig, new) :: P } s := by simpa using h
    obtain ⟨h1, h2, h3⟩ := inv_pop1 h' (by simpa using hn.1)
    obtain ⟨s', hs', hinv⟩ := ih h3 hn.2
    refine ⟨s', ?_, hinv⟩
    simp only [popPatches, h1, if_true, h2]
    exact hs'

/-! ## Tracing modules -/

theorem handlersFor_append (M N : List Mod) (op : Nat) :
    handlersFor cfg (M ++ N) op = handlersFor cfg M op ++ handlersFor cfg N op := by
  simp [handlersFor]

theorem handlersFor_one (m : Mod) (op : Nat) :
    handlersFor cfg [m] op = if decide (op ∈ cfg.wanted m) = true then [m] else [] := by
  simp only [handlersFor, List.filter_cons, List.filter_nil]

theorem inv_push (hcfg : cfg.Ok) {c : Ctx} {s : State} {m : Mod} (h : Inv cfg c s) (hm : m ∉ c.modules) :
    Inv cfg { c with modules := c.modules ++ [m] } (pushModule cfg m s) := by
  obtain ⟨hnd, hlt⟩ := hcfg m
  unfold pushModule
  rw [placeAll_eq m _ hlt]
  refine { h with modules := ?_, nodup := ?_, tables := ?_, traceAll := ?_ }
  · simp [h.modules]
  · simp only
    rw [List.nodup_append]
    refine ⟨h.nodup, by simp, ?_⟩
    intro a ha b hb
    simp only [List.mem_singleton] at hb
    subst hb
    exact fun e => hm (e ▸ ha)
  · intro op
    have := packed_foldl m op (cfg.wanted m) hnd _ _ (h.tables op)
    simp only [handlersFor_append, handlersFor_one, decide_eq_true_eq]
    exact this
  · simp only [Bool.or_eq_true, h.traceAll, List.any_eq_true, Bool.not_eq_true', List.mem_append, List.mem_singleton]
    constructor
    · rintro (⟨m', hm', op, hop, ht⟩ | ⟨op, hop, ht⟩)
      · exact ⟨m', .inl hm', op, hop, ht⟩
      · exact ⟨m, .inr rfl, op, hop, ht⟩
    · rintro ⟨m', hm' | rfl, op, hop, ht⟩
      · exact .inl ⟨m', hm', op, hop, ht⟩
      · exact .inr ⟨op, hop, ht⟩

theorem inv_popModule (hcfg : cfg.Ok) {c : Ctx} {s : State} {M : List Mod} {m : Mod}
    (h : Inv cfg { c with modules := M ++ [m] } s) :
    ∃ s', popModule cfg m s = (s', none) ∧ Inv cfg { c with modules := M } s' := by
  have hmods : s.modules = M ++ [m] := h.modules
  have hnd : (M ++ [m]).Nodup := h.nodup
  have hm : m ∉ M := fun hm => (List.nodup_append.1 hnd).2.2 m hm m (by simp) rfl
  have htab : ∀ op, Packed op (handlersFor cfg M op)
      (s.tables.map (fun t => fun o => if t o = some m then none else t o)) := by
    intro op
    have := h.tables op
    simp only [handlersFor_append, handlersFor_one] at this
    exact packed_clear m op _ _ _ (fun hx => hm (List.mem_filter.1 hx).1) this
  unfold popModule
  rw [hmods]
  simp only [List.getLast?_concat, ne_eq, not_true_eq_false, if_false]
  refine ⟨_, rfl, ?_⟩
  refine { h with modules := ?_, nodup := (List.nodup_append.1 hnd).1, tables := htab, traceAll := ?_ }
  · simp
  · simp only
    have hall : s.traceAll = true ↔ ∃ m' ∈ M ++ [m], ∃ op ∈ cfg.wanted m', cfg.traceable op = false := h.traceAll
    have htop : topUntraceable cfg (s.tables.map (fun t => fun o => if t o = some m then none else t o)) = true ↔
        ∃ m' ∈ M, ∃ op ∈ cfg.wanted m', cfg.traceable op = false := by
      cases hts : s.tables.map (fun t => fun o => if t o = some m then none else t o) with
      | nil =>
        simp only [topUntraceable, Bool.false_eq_true, false_iff]
        rintro ⟨m', hm', op, hop, -⟩
        have := htab op
        rw [hts] at this
        obtain ⟨n, hn⟩ := this
        have hmem : m' ∈ handlersFor cfg M op := List.mem_filter.2 ⟨hm', by simpa using hop⟩
        cases hL : handlersFor cfg M op with
        | nil => rw [hL] at hmem; cases hmem
        | cons x L => rw [hL] at hn; simp at hn
      | cons t ts =>
        have htop : ∀ op, t op = (handlersFor cfg M op).head? := fun op => by
          have := htab op
          rw [hts] at this
          exact packed_top op _ _ _ this
        simp only [topUntraceable, List.any_eq_true, List.mem_range, Bool.and_eq_true, Bool.not_eq_true', htop]
        constructor
        · rintro ⟨op, hop, hs, ht⟩
          cases hL : handlersFor cfg M op with
          | nil => rw [hL] at hs; simp at hs
          | cons x L =>
            have hx : x ∈ handlersFor cfg M op := by rw [hL]; exact List.mem_cons_self ..
            have := List.mem_filter.1 hx
            exact ⟨x, this.1, op, by simpa using this.2, ht⟩
        · rintro ⟨m', hm', op, hop, ht⟩
          refine ⟨op, (hcfg m').2 op hop, ?_, ht⟩
          have hmem : m' ∈ handlersFor cfg M op := List.mem_filter.2 ⟨hm', by simpa using hop⟩
          cases hL : handlersFor cfg M op with
          | nil => rw [hL] at hmem; cases hmem
          | cons x L => rfl
    cases hta : s.traceAll with
    | true => rw [if_pos rfl]; exact htop
    | false =>
      simp only [Bool.false_eq_true, if_false, false_iff]
      rintro ⟨m', hm', op, hop, ht⟩
      have := hall.2 ⟨m', List.mem_append_left _ hm', op, hop, ht⟩
      rw [hta] at this; cases this

theorem inv_pushAll (hcfg : cfg.Ok) {c : Ctx} (ms : List Mod) : ∀ {s : State} {M : List Mod},
    Inv cfg { c with modules := M } s → (M ++ ms).Nodup →
    Inv cfg { c with modules := M ++ ms } (pushAll cfg ms s) := by
  induction ms with
  | nil => intro s M h _; simpa [pushAll] using h
  | cons m ms ih =>
    intro s M h hn
    have hm : m ∉ M := fun hm => (List.nodup_append.1 hn).2.2 m hm m (by simp) rfl
    have h1 := inv_push hcfg h hm
    have := ih (M := M ++ [m]) h1 (by simpa using hn)
    simpa [pushAll] using this

theorem inv_popAll (hcfg : cfg.Ok) {c : Ctx} {M : List Mod} (ms : List Mod) : ∀ {s : State},
    Inv cfg { c with modules := M ++ ms.reverse } s →
    ∃ s', popAll cfg ms s = (s', none) ∧ Inv cfg { c with modules := M } s' := by
  induction ms with
  | nil => intro s h; exact ⟨s, rfl, by simpa using h⟩
  | cons m ms ih =>
    intro s h
    have h' : Inv cfg { c with modules := (M ++ ms.reverse) ++ [m] } s := by simpa using h
    obtain ⟨s1, h1, h2⟩ := inv_popModule hcfg h'
    obtain ⟨s', h3, h4⟩ := ih h2
    exact ⟨s', by simp only [popAll, h1, h3], h4⟩

/-! ## Looking -/

theorem inv_resolve {c : Ctx} {s : State} (h : Inv cfg c s) (caller : Code) (fn : Fn) :
    resolve cfg s caller fn = callTarget cfg c.patches caller fn := by
  unfold resolve callTarget
  cases hl : layers c.patches fn with
  | nil =>
    have hn : s.nextfn caller fn = none := by rw [h.next, hl]; rfl
    have hb : (if (cfg.wrapperCode caller || cfg.wrapperFn fn) = true then fn
        else (below cfg.code fn caller []).getD (([] : List Fn).head?.getD fn)) = fn := by
      simp [below]
    rw [hb]
    rcases h.over_none fn hl with h1 | h1
    · rw [h1]
    · rw [h1, hn]; simp
  | cons g rest =>
    rw [h.over_some fn g rest hl, h.next, hl]
    simp only
    by_cases h1 : cfg.wrapperCode caller = true
    · simp [h1]
    · by_cases h2 : cfg.wrapperFn fn = true
      · simp [h2]
      · simp only [h1, h2, if_false, Bool.or_self]
        simp only [Bool.not_eq_true] at h1 h2
        simp only [Bool.false_eq_true, if_false]
        cases hb : below cfg.code fn caller (g :: rest) with
        | none => simp
        | some n =>
          simp only [Option.getD_some]
          split
          · rename_i e; exact e.symm
          · rfl

theorem inv_handlers {c : Ctx} {s : State} (h : Inv cfg c s) (op : Nat) :
    handlers cfg s op = if c.tracing then handlersFor cfg c.modules op else [] := by
  unfold handlers
  rw [h.enabled]
  cases ht : c.tracing with
  | false => rfl
  | true =>
    simp only [Bool.not_true, Bool.false_eq_true, if_false, if_true]
    split
    · rename_i hb
      simp only [Bool.and_eq_true, Bool.not_eq_true'] at hb
      symm
      cases hL : handlersFor cfg c.modules op with
      | nil => rfl
      | cons x L =>
        have hx : x ∈ handlersFor cfg c.modules op := by rw [hL]; exact List.mem_cons_self ..
        have := List.mem_filter.1 hx
        have h2 := h.traceAll.2 ⟨x, this.1, op, by simpa using this.2, hb.2⟩
        rw [hb.1] at h2; cases h2
    · exact packed_filterMap op _ _ (h.tables op)

theorem inv_look {c : Ctx} {s : State} (h : Inv cfg c s) (l : Look) : look cfg s l = c.look cfg l := by
  cases l with
  | var x => simp [look, Ctx.look, h.vars]
  | call a f => simp [look, Ctx.look, inv_resolve h]
  | handlers op => simp [look, Ctx.look, inv_handlers h]
  | modules => simp [look, Ctx.look, h.modules]
  | tracing => simp [look, Ctx.look, h.enabled]
  | stateSpace => simp [look, Ctx.look, h.space]
  | enforcing => simp [look, Ctx.look, h.enforcing]
  | engaged => simp [look, Ctx.look, h.engaged]
  | path => simp [look, Ctx.look, h.path]
  | hooks => simp [look, Ctx.look, h.hooks]

/-! ## Scopes -/

theorem enter_refused {c : Ctx} {s : State} (h : Inv cfg c s) (sc : Scope) (e : Exc) (hr : c.refuses sc = some e) :
    enter cfg sc s = .error (e, s) := by
  cases sc with
  | opened x v r =>
    simp only [Ctx.refuses] at hr
    split at hr
    · rename_i hb; cases hr; simp only [enter, h.vars, hb, if_true]
    · cases hr
  | reprContext ps =>
    simp only [Ctx.refuses] at hr
    split at hr
    · cases hr
    · rename_i hb; cases hr; simp only [enter, h.enabled, hb, Bool.not_false, if_true]
  | stateSpace n =>
    simp only [Ctx.refuses] at hr
    split at hr
    · rename_i hb; cases hr; simp only [enter, h.space, hb, if_true]
    · cases hr
  | enforcement =>
    simp only [Ctx.refuses] at hr
    split at hr
    · rename_i hb; cases hr; simp only [enter, h.enforcing, hb, if_true]
    · cases hr
  | shortCircuit =>
    simp only [Ctx.refuses] at hr
    split at hr
    · rename_i hb; cases hr; simp only [enter, h.engaged, hb, if_true]
    · cases hr
  | _ => cases hr

theorem enter_leave (hcfg : cfg.Ok) {c : Ctx} {s : State} (h : Inv cfg c s) (sc : Scope)
    (hr : c.refuses sc = none) (hf : c.Fits cfg sc) :
    ∃ saved s1, enter cfg sc s = .ok (saved, s1) ∧ Inv cfg (c.inside cfg sc) s1 ∧
      ∀ (r : Option Exc) (s2 : State), r ≠ some .generatorExit → Inv cfg (c.inside cfg sc) s2 →
        ∃ s3, leave cfg sc saved r s2 = (s3, none) ∧ Inv cfg c s3 := by
  cases sc with
  | opened x v r =>
    simp only [Ctx.refuses] at hr
    split at hr
    · cases hr
    · rename_i hb
      refine ⟨.old (c.vars x), { s with vars := fun y => if y = x then v else c.vars y },
        by simp only [enter, h.vars, hb, Bool.false_eq_true, if_false], { h with vars := by simp [Ctx.inside] }, ?_⟩
      intro r s2 _ h2
      have hv : s2.vars x = v := by rw [h2.vars]; simp [Ctx.inside]
      refine ⟨{ s2 with vars := fun y => if y = x then c.vars x else s2.vars y },
        by simp only [leave, hv, if_true], { h2 with vars := ?_ }⟩
      funext y
      simp only [h2.vars, Ctx.inside]
      split
      · rename_i e; rw [e]
      · rfl
  | reprContext ps =>
    simp only [Ctx.refuses] at hr
    split at hr
    · rename_i hb
      obtain ⟨s1, h1, h2⟩ := inv_add (c := c) ps (P := c.patches) h hf.1
      refine ⟨.nothing, s1, by simp only [enter, h.enabled, hb, Bool.not_true, Bool.false_eq_true, if_false, h1], h2, ?_⟩
      intro r s2 _ hi
      exact inv_pop (c := c) ps hi hf.2
    · cases hr
  | patched ps ms =>
    obtain ⟨hf1, hf2, hf3, hf4⟩ := hf
    obtain ⟨s1, h1, h2⟩ := inv_add (c := c) ps (P := c.patches) h hf1
    have h3 := inv_pushAll hcfg (c := { c with patches := ps.reverse ++ c.patches }) ms (M := c.modules) h2 hf3
    have hne : ms.isEmpty = false := by cases ms <;> simp_all
    refine ⟨_, _, by simp only [enter, h1, hne, Bool.false_eq_true, if_false]; rfl, h3, ?_⟩
    intro r s2 _ hi
    obtain ⟨s3, h4, h5⟩ := inv_popAll hcfg (c := { c with patches := ps.reverse ++ c.patches }) (M := c.modules)
      ms.reverse (s := s2) (by rw [List.reverse_reverse]; exact hi)
    obtain ⟨s4, h6, h7⟩ := inv_pop (c := c) ps h5 hf2
    exact ⟨s4, by simp only [leave, h4, h6], h7⟩
  | pushed m =>
    exact ⟨_, _, rfl, inv_push hcfg h hf, fun r s2 _ hi => inv_popModule hcfg hi⟩
  | noTracing =>
    cases hc : c.tracing with
    | true =>
      refine ⟨.noop false, { s with enabled := false }, by simp only [enter, h.enabled, hc, if_true],
        { h with enabled := rfl }, ?_⟩
      intro r s2 hr2 hi
      exact ⟨{ s2 with enabled := true }, by simp only [leave, true_and, ne_eq, hr2, not_false_eq_true, if_true], { hi with enabled := hc.symm }⟩
    | false =>
      refine ⟨.noop true, s, by simp only [enter, h.enabled, hc, Bool.false_eq_true, if_false],
        { h with enabled := by rw [h.enabled, hc]; rfl }, ?_⟩
      intro r s2 _ hi
      exact ⟨s2, by simp [leave], { hi with enabled := by rw [hi.enabled, hc]; rfl }⟩
  | resumedTracing =>
    cases hc : c.tracing with
    | false =>
      refine ⟨.noop false, { s with enabled := true },
        by simp only [enter, h.enabled, hc, Bool.false_eq_true, if_false], { h with enabled := rfl }, ?_⟩
      intro r s2 hr2 hi
      exact ⟨{ s2 with enabled := false }, by simp only [leave, true_and, ne_eq, hr2, not_false_eq_true, if_true], { hi with enabled := hc.symm }⟩
    | true =>
      refine ⟨.noop true, s, by simp only [enter, h.enabled, hc, if_true],
        { h with enabled := by rw [h.enabled, hc]; rfl }, ?_⟩
      intro r s2 _ hi
      exact ⟨s2, by simp [leave], { hi with enabled := by rw [hi.enabled, hc]; rfl }⟩
  | tracer =>
    obtain ⟨hf1, hf2, hf3⟩ := hf
    have h1 := inv_push hcfg h hf1
    have ht : (pushModule cfg cfg.patcher s).tool = false := by rw [h1.tool]; exact hf2
    refine ⟨.nothing, { pushModule cfg cfg.patcher s with tool := true, enabled := true },
      by simp only [enter, ht, Bool.false_eq_true, if_false],
      { h1 with tool := rfl, enabled := rfl }, ?_⟩
    intro r s2 _ hi
    have hi' : Inv cfg { c with modules := c.modules ++ [cfg.patcher] } { s2 with tool := false, enabled := false } :=
      { hi with tool := hf2.symm, enabled := hf3.symm }
    exact inv_popModule hcfg hi'
  | stateSpace n =>
    simp only [Ctx.refuses] at hr
    split at hr
    · cases hr
    · rename_i hb
      refine ⟨.nothing, { s with space := some n },
        by simp only [enter, h.space, hb, Bool.false_eq_true, if_false], { h with space := rfl }, ?_⟩
      intro r s2 _ hi
      have hs : s2.space = some n := hi.space
      refine ⟨{ s2 with space := none }, by simp only [leave, hs, if_true], { hi with space := ?_ }⟩
      simp only
      cases hcs : c.space with
      | none => rfl
      | some x => rw [hcs] at hb; simp at hb
  | enforcing f =>
    cases hc : c.enforcing with
    | none =>
      refine ⟨.noop true, s, by simp only [enter, h.enforcing, hc], { h with enforcing := by rw [h.enforcing, hc]; simp [Ctx.inside, hc] }, ?_⟩
      intro r s2 _ hi
      exact ⟨s2, by simp [leave], { hi with enforcing := by rw [hi.enforcing, hc]; simp [Ctx.inside, hc] }⟩
    | some fs =>
      have hfn : f ∉ fs := hf fs hc
      refine ⟨.noop false, { s with enforcing := some (if f ∈ fs then fs else f :: fs) },
        by simp only [enter, h.enforcing, hc], { h with enforcing := by simp [Ctx.inside, hc, hfn] }, ?_⟩
      intro r s2 _ hi
      have hs : s2.enforcing = some (f :: fs) := by rw [hi.enforcing]; simp [Ctx.inside, hc]
      refine ⟨{ s2 with enforcing := some fs }, ?_, { hi with enforcing := hc.symm }⟩
      simp [leave, hs]
  | enforcement =>
    simp only [Ctx.refuses] at hr
    split at hr
    · cases hr
    · rename_i hb
      have h0 : Inv cfg { c with enforcing := some [] } { s with enforcing := some [] } := { h with enforcing := rfl }
      have h1 := inv_push hcfg h0 hf
      refine ⟨_, _, by simp only [enter, h.enforcing, hb, Bool.false_eq_true, if_false]; rfl, h1, ?_⟩
      intro r s2 _ hi
      have hce : c.enforcing = none := by
        cases hcs : c.enforcing with
        | none => rfl
        | some x => rw [hcs] at hb; simp at hb
      have hi' : Inv cfg { c with modules := c.modules ++ [cfg.enforcer] } { s2 with enforcing := none } :=
        { hi with enforcing := hce.symm }
      exact inv_popModule hcfg hi'
  | shortCircuit =>
    simp only [Ctx.refuses] at hr
    split at hr
    · cases hr
    · rename_i hb
      refine ⟨.nothing, { s with engaged := true },
        by simp only [enter, h.engaged, hb, Bool.false_eq_true, if_false], { h with engaged := rfl }, ?_⟩
      intro r s2 _ hi
      have hs : s2.engaged = true := hi.engaged
      refine ⟨{ s2 with engaged := false }, by simp only [leave, hs, if_true], { hi with engaged := ?_ }⟩
      simpa using hb
  | pypath ps =>
    refine ⟨.path s.path, { s with path := ps.reverse ++ s.path }, rfl, { h with path := by simp [Ctx.inside, h.path] }, ?_⟩
    intro r s2 _ hi
    exact ⟨{ s2 with path := s.path }, rfl, { hi with path := h.path }⟩
  | pureImports => exact hf.elim

theorem run_inv (hcfg : cfg.Ok) (p : Prog) : ∀ {c : Ctx} {s : State}, Inv cfg c s → WellNested cfg p c →
    ∃ s', run cfg p s = (s', specRun cfg p c) ∧ Inv cfg c s' ∧ (specRun cfg p c).1 ≠ some .generatorExit := by
  induction p with
  | skip => intro c s h _; exact ⟨s, rfl, h, by simp [specRun]⟩
  | look l => intro c s h _; exact ⟨s, by simp [run, specRun, inv_look h], h, by simp [specRun]⟩
  | raise e => intro c s h hw; exact ⟨s, rfl, h, by simpa [specRun, WellNested] using hw⟩
  | seq p q ihp ihq =>
    intro c s h hw
    obtain ⟨s1, h1, h2, h3⟩ := ihp h hw.1
    cases hp : specRun cfg p c with
    | mk r log =>
      rw [hp] at h1 h3
      cases r with
      | some e => exact ⟨s1, by simp only [run, h1, specRun, hp], h2, by simpa only [specRun, hp] using h3⟩
      | none =>
        obtain ⟨s2, h4, h5, h6⟩ := ihq h2 hw.2
        exact ⟨s2, by simp only [run, h1, h4, specRun, hp], h5, by simpa only [specRun, hp] using h6⟩
  | scope sc p ih =>
    intro c s h hw
    cases hr : c.refuses sc with
    | some e =>
      refine ⟨s, by simp only [run, enter_refused h sc e hr, specRun, hr], h, ?_⟩
      simp only [specRun, hr, ne_eq, Option.some.injEq]
      intro he
      subst he
      cases sc <;> simp only [Ctx.refuses] at hr <;> (try split at hr) <;> simp at hr
    | none =>
      obtain ⟨saved, s1, h1, h2, h3⟩ := enter_leave hcfg h sc hr hw.1
      obtain ⟨s2, h4, h5, h6⟩ := ih h2 hw.2
      obtain ⟨s3, h7, h8⟩ := h3 _ s2 h6 h5
      refine ⟨s3, ?_, h8, by simpa only [specRun, hr] using h6⟩
      simp only [run, h1, h4, h7, specRun, hr]
  | attempt p ih =>
    intro c s h hw
    obtain ⟨s1, h1, h2, _⟩ := ih h hw
    exact ⟨s1, by simp only [run, h1, specRun], h2, by simp [specRun]⟩

end Verif.Scope
