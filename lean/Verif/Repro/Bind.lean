import Verif.Repro.Lemmas

/-! # The arguments as written bind to the parameters they came from -/

namespace Verif.Repro

theorem split_kws : ∀ (as : List (Option String × Val)), (∀ a ∈ as, a.1.isSome = true) →
    ∃ kws, splitArgs as = some ([], kws)
  | [], _ => ⟨[], rfl⟩
  | (none, v) :: as, h => absurd (h _ (List.mem_cons_self ..)) (by simp)
  | (some x, v) :: as, h => by
    obtain ⟨kws, hk⟩ := split_kws as fun a ha => h a (List.mem_cons_of_mem _ ha)
    exact ⟨(x, v) :: kws, by rw [splitArgs, hk]⟩

theorem split_pos (vs : List Val) (as : List (Option String × Val)) (kws : List (String × Val))
    (h : splitArgs as = some ([], kws)) : splitArgs (vs.map (fun v => (none, v)) ++ as) = some (vs, kws) := by
  induction vs with
  | nil => exact h
  | cons v vs ih =>
    show (splitArgs (vs.map (fun v => (none, v)) ++ as)).map _ = _
    rw [ih]; rfl

theorem split_named (kvs : List (String × Val)) : splitArgs (kvs.map fun kv => (some kv.1, kv.2)) = some ([], kvs) := by
  induction kvs with
  | nil => rfl
  | cons kv kvs ih =>
    rw [List.map_cons, splitArgs, ih]

theorem split_mem : ∀ (as : List (Option String × Val)) (pos : List Val) (kws : List (String × Val)),
    splitArgs as = some (pos, kws) → ∀ kv ∈ kws, (some kv.1, kv.2) ∈ as
  | [], pos, kws, h, kv, hk => by
    injection h with h; injection h with h1 h2; subst h2; cases hk
  | (none, v) :: as, pos, kws, h, kv, hk => by
    rw [splitArgs, Option.map_eq_some_iff] at h
    obtain ⟨⟨p, k⟩, h1, h2⟩ := h
    injection h2 with h2 h3
    subst h3
    exact List.mem_cons_of_mem _ (split_mem as p k h1 kv hk)
  | (some x, v) :: as, pos, kws, h, kv, hk => by
    rw [splitArgs] at h
    split at h
    · rename_i k h1
      injection h with h; injection h with h2 h3
      subst h3
      rcases List.mem_cons.mp hk with rfl | hk
      · exact List.mem_cons_self ..
      · exact List.mem_cons_of_mem _ (split_mem as [] k h1 kv hk)
    · cases h

/-- The parameters whose arguments are all written with keywords. -/
def Kwish (p : Param) (s : Slot) : Prop :=
  p.kind = .kwOnly ∨ p.kind = .varKw ∨ (p.kind = .posOrKw ∧ p.default.isSome = true) ∨ (p.kind = .varPos ∧ s = .many [])

theorem callArgs_kws : ∀ (ps : List Param) (ss : List Slot), List.Forall₂ Kwish ps ss →
    ∀ a ∈ callArgs ps ss, a.1.isSome = true
  | [], _, _, a, ha => by simp [callArgs] at ha
  | p :: ps, [], h, _, _ => by cases h
  | p :: ps, s :: ss, h, a, ha => by
    cases h with
    | cons h1 h2 =>
      rw [callArgs, List.mem_append] at ha
      rcases ha with ha | ha
      · unfold argsOf at ha
        rcases h1 with h | h | ⟨h, hd⟩ | ⟨h, rfl⟩ <;> simp only [h] at ha
        · cases s <;> simp at ha
          rw [ha]; rfl
        · cases s <;> simp at ha
          obtain ⟨x, v, _, rfl⟩ := ha; rfl
        · cases s <;> simp [hd] at ha
          rw [ha]; rfl
        · simp at ha
      · exact callArgs_kws ps ss h2 a ha

/-- The keywords written are names of parameters or in `**kwargs`. -/
theorem callArgs_names : ∀ (ps : List Param) (ss : List Slot) (x : String) (v : Val), (some x, v) ∈ callArgs ps ss →
    x ∈ ps.map (·.name) ∨ ∃ kvs, Slot.named kvs ∈ ss ∧ x ∈ kvs.map (·.1)
  | [], _, x, v, h => by simp [callArgs] at h
  | p :: ps, [], x, v, h => by simp [callArgs] at h
  | p :: ps, s :: ss, x, v, h => by
    rw [callArgs, List.mem_append] at h
    rcases h with h | h
    · cases s with
      | many vs => simp [argsOf] at h
      | named kvs =>
        rw [argsOf] at h
        split at h
        · rw [List.mem_map] at h
          obtain ⟨kv, hkv, he⟩ := h
          injection he with he _
          injection he with he
          exact .inr ⟨kvs, List.mem_cons_self .., List.mem_map.mpr ⟨kv, hkv, he⟩⟩
        · cases h
      | one w =>
        left
        have hx : x = p.name := by
          unfold argsOf at h
          cases hk : p.kind <;> simp [hk] at h
          · split at h
            · simp at h; exact h.1
            · simp at h
          · exact h.1
        rw [hx]; exact List.mem_cons_self ..
    · rcases callArgs_names ps ss x v h with h | ⟨kvs, h1, h2⟩
      · exact .inl (List.mem_cons_of_mem _ h)
      · exact .inr ⟨kvs, List.mem_cons_of_mem _ h1, h2⟩

theorem takeKw_head (x : String) (v : Val) (r : List (String × Val)) : takeKw x ((x, v) :: r) = some (v, r) := by
  rw [takeKw, if_pos rfl]

theorem forall₂_kwish (p : Param) (ps : List Param) (ss : List Slot) (hp : ∀ q ∈ ps, p.kind.rank ≤ q.kind.rank)
    (ht : List.Forall₂ Param.Takes ps ss)
    (h : ∀ q ∈ ps, ∀ s ∈ ss, q.Takes s → p.kind.rank ≤ q.kind.rank → Kwish q s) : List.Forall₂ Kwish ps ss := by
  induction ht with
  | nil => exact .nil
  | cons h1 h2 ih =>
    exact .cons (h _ (List.mem_cons_self ..) _ (List.mem_cons_self ..) h1 (hp _ (List.mem_cons_self ..)))
      (ih (fun q hq => hp q (List.mem_cons_of_mem _ hq))
        fun q hq s hs => h q (List.mem_cons_of_mem _ hq) s (List.mem_cons_of_mem _ hs))

theorem binds_back : ∀ (ps : List Param) (ss : List Slot), IsSignature ps → IsBound ps ss →
    (∀ p ∈ ps, p.kind = .posOrKw → p.default.isSome → ∀ vs, Slot.many vs ∈ ss → vs = []) →
    ∃ pos kws, splitArgs (callArgs ps ss) = some (pos, kws) ∧ bindCall ps pos kws = some ss
  | [], ss, _, hb, _ => by
    cases hb.takes
    exact ⟨[], [], rfl, rfl⟩
  | p :: ps, [], _, hb, _ => by cases hb.takes
  | p :: ps, s :: ss, hsig, hb, hd => by
    have htk := hb.takes
    cases htk with
    | cons h1 h2 =>
    have hn := List.nodup_cons.mp (show (p.name :: ps.map (·.name)).Nodup from hsig.names)
    have ho := List.pairwise_cons.mp hsig.order
    have hdf := List.pairwise_cons.mp hsig.defaults
    have hrank : ∀ q ∈ ps, p.kind.rank ≤ q.kind.rank := fun q hq => (ho.1 q hq).1
    obtain ⟨pos, kws, hs, hbc⟩ := binds_back ps ss ⟨hn.2, ho.2, hdf.2⟩
      ⟨h2, fun kvs hk x hx q hq => hb.extra kvs (List.mem_cons_of_mem _ hk) x hx q (List.mem_cons_of_mem _ hq)⟩
      (fun q hq h1 h2 vs hv => hd q (List.mem_cons_of_mem _ hq) h1 h2 vs (List.mem_cons_of_mem _ hv))
    -- the keywords of the other arguments are not the name of this parameter
    have hfree : p.kind = .posOrKw → p.name ∉ kws.map (·.1) := by
      intro hk hm
      obtain ⟨kv, hkv, he⟩ := List.mem_map.mp hm
      have := split_mem _ _ _ hs kv hkv
      rcases callArgs_names ps ss _ _ this with h | ⟨kvs, h3, h4⟩
      · rw [he] at h; exact hn.1 h
      · exact hb.extra kvs (List.mem_cons_of_mem _ h3) kv.1 h4 p (List.mem_cons_self ..) (.inl hk) he.symm
    have key : List.Forall₂ Kwish ps ss → pos = [] := by
      intro hkw
      obtain ⟨kws', hs'⟩ := split_kws _ (callArgs_kws ps ss hkw)
      rw [hs] at hs'
      injection hs' with hs'
      injection hs'
    rw [callArgs]
    cases hk : p.kind with
    | posOnly =>
      obtain ⟨v, rfl⟩ : ∃ v, s = .one v := by unfold Param.Takes at h1; rw [hk] at h1; exact h1
      refine ⟨v :: pos, kws, ?_, ?_⟩
      · rw [argsOf, hk]
        show (splitArgs (callArgs ps ss)).map _ = _
        rw [hs]; rfl
      · rw [bindCall, hk]
        simp only
        rw [hbc]; rfl
    | posOrKw =>
      obtain ⟨v, rfl⟩ : ∃ v, s = .one v := by unfold Param.Takes at h1; rw [hk] at h1; exact h1
      cases hdef : p.default with
      | none =>
        refine ⟨v :: pos, kws, ?_, ?_⟩
        · rw [argsOf, hk, hdef]
          show (splitArgs (callArgs ps ss)).map _ = _
          rw [hs]; rfl
        · rw [bindCall, hk]
          simp only
          rw [if_neg (by rw [List.contains_iff_mem]; exact hfree hk), hbc]; rfl
      | some dv =>
        have hpos : pos = [] := by
          apply key
          apply forall₂_kwish p ps ss hrank h2
          intro q hq s' hs' ht hr
          rw [hk] at hr
          cases hqk : q.kind with
          | posOnly => rw [hqk] at hr; exact absurd hr (by decide)
          | posOrKw =>
            refine .inr (.inr (.inl ⟨hqk, ?_⟩))
            exact hdf.1 q hq (by rw [hk]; decide) (by rw [hqk]; decide) (by rw [hdef]; rfl)
          | varPos =>
            refine .inr (.inr (.inr ⟨hqk, ?_⟩))
            unfold Param.Takes at ht
            rw [hqk] at ht
            obtain ⟨vs, rfl⟩ := ht
            rw [hd p (List.mem_cons_self ..) hk (by rw [hdef]; rfl) vs (List.mem_cons_of_mem _ hs')]
          | kwOnly => exact .inl hqk
          | varKw => exact .inr (.inl hqk)
        subst hpos
        refine ⟨[], (p.name, v) :: kws, ?_, ?_⟩
        · rw [argsOf, hk, hdef]
          show splitArgs ((some p.name, v) :: callArgs ps ss) = _
          rw [splitArgs, hs]
        · rw [bindCall, hk]
          simp only
          rw [takeKw_head]
          simp only
          rw [hbc]; rfl
    | varPos =>
      obtain ⟨vs, rfl⟩ : ∃ vs, s = .many vs := by unfold Param.Takes at h1; rw [hk] at h1; exact h1
      have hpos : pos = [] := by
        apply key
        apply forall₂_kwish p ps ss hrank h2
        intro q hq s' hs' ht hr
        rw [hk] at hr
        cases hqk : q.kind with
        | posOnly => rw [hqk] at hr; exact absurd hr (by decide)
        | posOrKw => rw [hqk] at hr; exact absurd hr (by decide)
        | varPos => exact absurd hk ((ho.1 q hq).2 (by rw [hk, hqk])).1
        | kwOnly => exact .inl hqk
        | varKw => exact .inr (.inl hqk)
      subst hpos
      refine ⟨vs, kws, by rw [argsOf, if_pos hk]; exact split_pos vs _ _ hs, ?_⟩
      rw [bindCall.eq_def]
      simp only [hk]
      rw [hbc]; rfl
    | kwOnly =>
      obtain ⟨v, rfl⟩ : ∃ v, s = .one v := by unfold Param.Takes at h1; rw [hk] at h1; exact h1
      have hpos : pos = [] := by
        apply key
        apply forall₂_kwish p ps ss hrank h2
        intro q hq s' hs' ht hr
        rw [hk] at hr
        cases hqk : q.kind with
        | posOnly => rw [hqk] at hr; exact absurd hr (by decide)
        | posOrKw => rw [hqk] at hr; exact absurd hr (by decide)
        | varPos => rw [hqk] at hr; exact absurd hr (by decide)
        | kwOnly => exact .inl hqk
        | varKw => exact .inr (.inl hqk)
      subst hpos
      refine ⟨[], (p.name, v) :: kws, ?_, ?_⟩
      · rw [argsOf, hk]
        show splitArgs ((some p.name, v) :: callArgs ps ss) = _
        rw [splitArgs, hs]
      · rw [bindCall, hk]
        simp only
        rw [takeKw_head]
        simp only
        rw [hbc]; rfl
    | varKw =>
      obtain ⟨kvs, rfl⟩ : ∃ kvs, s = .named kvs := by unfold Param.Takes at h1; rw [hk] at h1; exact h1
      have hps : ps = [] := by
        cases ps with
        | nil => rfl
        | cons q qs =>
          have := ho.1 q (List.mem_cons_self ..)
          have hq : q.kind = .varKw := by
            have hr := this.1
            rw [hk] at hr
            cases hqk : q.kind <;> rw [hqk] at hr <;> first | rfl | exact absurd hr (by decide)
          exact absurd hk (this.2 (by rw [hk, hq])).2
      subst hps
      cases h2
      refine ⟨[], kvs, ?_, ?_⟩
      · rw [argsOf, if_pos hk]
        show splitArgs (kvs.map (fun kv => (some kv.1, kv.2)) ++ []) = _
        rw [List.append_nil, split_named]
      · rw [bindCall.eq_def]
        simp only [hk]
        rfl

end Verif.Repro
