import Verif.Arrays.Lemmas
/-
Runs of a symbolic dictionary against runs of a Python dictionary.
-/
set_option linter.unusedSectionVars false

namespace Verif.Arrays

variable {K V : Type} [DecidableEq K] [DecidableEq V]

/-- What holds of a state. -/
def StateInv (d : Dict K V) (σ : State K (K → Option V)) : Prop :=
  CacheInv d σ.cache ∧ ∀ g ∈ σ.gens, GenInv d σ.cache g

theorem start_inv {d : Dict K V} (hi : d.Init) : StateInv d ⟨[], []⟩ :=
  ⟨⟨List.nodup_nil, by simp, by simpa using hi.1⟩, by simp⟩

theorem gen_start (d : Dict K V) (c : List K) : GenInv d c ⟨0, d.arr⟩ := ⟨Nat.zero_le _, by simp [left_nil]⟩

/-- The positions of the iterators. -/
def positions {A : Type} (σ : State K A) : List Nat := σ.gens.map (·.idx)

theorem positions_get {A : Type} {σ : State K A} {i : Nat} {g : Gen A} (h : σ.gens[i]? = some g) :
    (positions σ)[i]? = some g.idx := by simp [positions, h]

theorem positions_set_same {A : Type} {σ : State K A} {i : Nat} {g : Gen A} (h : σ.gens[i]? = some g) (c : List K) :
    positions ⟨c, σ.gens.set i g⟩ = positions σ := by
  have : σ.gens.set i g = σ.gens := by
    apply List.ext_getElem?
    intro j
    rw [List.getElem?_set]
    by_cases e : i = j
    · subst e
      rw [if_pos rfl, h]
      obtain ⟨hl, -⟩ := List.getElem?_eq_some_iff.1 h
      simp [hl]
    · simp [e]
  simp [positions, this]

theorem step_mono {d : Dict K V} {σ τ : State K (K → Option V)} {op : Op K V} {o : Obs K V} (hs : StateInv d σ)
    (h : DictStep d σ op o τ) : StateInv d τ ∧ σ.cache <+: τ.cache := by
  cases h with
  | iter =>
    refine ⟨⟨hs.1, ?_⟩, List.prefix_refl _⟩
    intro g hg
    rcases List.mem_append.1 hg with h | h
    · exact hs.2 g h
    · simp only [List.mem_singleton] at h
      subst h
      exact gen_start d _
  | next i g ob' c g' hg hn =>
    obtain ⟨h1, h2, h3, -⟩ := next_inv hs.1 (hs.2 g (List.mem_of_getElem? hg)) hn
    refine ⟨⟨h1, ?_⟩, h2⟩
    intro g'' hg''
    rcases List.mem_or_eq_of_mem_set hg'' with h | h
    · exact (hs.2 g'' h).mono h2
    · subst h
      exact h3
  | noIter => exact ⟨hs, List.prefix_refl _⟩
  | get => exact ⟨hs, List.prefix_refl _⟩
  | contains => exact ⟨hs, List.prefix_refl _⟩
  | len => exact ⟨hs, List.prefix_refl _⟩
  | truth => exact ⟨hs, List.prefix_refl _⟩
  | eq => exact ⟨hs, List.prefix_refl _⟩

theorem run_mono {d : Dict K V} {σ υ : State K (K → Option V)} {ops : List (Op K V)} {os : List (Obs K V)}
    (h : DictRun d σ ops os υ) (hs : StateInv d σ) : StateInv d υ ∧ σ.cache <+: υ.cache := by
  induction h with
  | nil => exact ⟨hs, List.prefix_refl _⟩
  | cons σ op o τ ops os υ h1 h2 ih =>
    obtain ⟨h3, h4⟩ := step_mono hs h1
    obtain ⟨h5, h6⟩ := ih h3
    exact ⟨h5, h4.trans h6⟩

theorem getElem?_of_prefix {c o : List K} (h : c <+: o) {i : Nat} {k : K} (hi : c[i]? = some k) : o[i]? = some k := by
  obtain ⟨t, rfl⟩ := h
  obtain ⟨hl, -⟩ := List.getElem?_eq_some_iff.1 hi
  rw [List.getElem?_append_left hl]
  exact hi

/-- Two orders, one the beginning of the other, are the same. -/
theorem order_prefix {d : Dict K V} {c o : List K} (hc : Order d c) (ho : Order d o) (h : c <+: o) : c = o := by
  have : c.length = o.length := by have := hc.2.2; have := ho.2.2; omega
  exact h.eq_of_length this

theorem contains_eq {d : Dict K V} (hi : d.Init) (k : K) : d.contains k = .bool (d.arr k).isSome := by
  rw [Dict.contains, get_eq hi]
  cases d.arr k <;> rfl

/-- One question. -/
theorem step_py {d : Dict K V} {σ τ : State K (K → Option V)} {op : Op K V} {ob : Obs K V} {o : List K}
    (hi : d.Init) (ho : Order d o) (hs : StateInv d σ) (h : DictStep d σ op ob τ) (hp : τ.cache <+: o)
    (hn : ob ≠ .ignored) (hgood : GoodOp op) :
    pyStep (items d o) (positions σ) op = (ob, positions τ) := by
  have hk : keys (items d o) = o := keys_items fun k hk => (ho.2.1 k).2 hk
  have hlen := length_items ho
  have hol := ho.2.2
  cases h with
  | iter => simp [pyStep, positions]
  | noIter i hg =>
    have : (positions σ)[i]? = none := by simp [positions, hg]
    simp only [pyStep, this]
  | next i g ob' c g' hg hnx =>
    have hgi := hs.2 g (List.mem_of_getElem? hg)
    obtain ⟨h1, h2, h3, h4 | h4 | h4⟩ := next_inv hs.1 hgi hnx
    · exact absurd h4.1 hn
    · obtain ⟨rfl, rfl, h5, h6, rfl⟩ := h4
      have hco : σ.cache = o := order_prefix h6 ho hp
      have : o[g'.idx]? = none := by rw [h5, hco]; simp
      simp only [pyStep, positions_get hg, hk, this, positions_set_same hg]
    · obtain ⟨k, rfl, h5, h6⟩ := h4
      have : o[g.idx]? = some k := getElem?_of_prefix hp h5
      simp only [pyStep, positions_get hg, hk, this]
      simp [positions, List.map_set, h6]
  | get k =>
    simp only [pyStep]
    rw [get_eq hi, ← find_items ho k]
    cases (items d o).find? fun e => e.1 = k <;> rfl
  | contains k =>
    simp only [pyStep, hk]
    rw [contains_eq hi]
    congr 2
    rw [Bool.eq_iff_iff, ho.2.1 k]
    simp
  | len =>
    simp only [pyStep]
    rw [hlen, hol]
  | truth =>
    simp only [pyStep]
    congr 2
    rw [Bool.eq_iff_iff]
    simp only [Bool.not_eq_true', decide_eq_true_eq]
    rw [List.isEmpty_eq_false_iff, ← List.length_pos_iff]
    omega
  | eq other =>
    simp only [pyStep]
    rw [eq_eq hi ho hgood]

/-- A sequence of questions. -/
theorem run_py {d : Dict K V} {σ υ : State K (K → Option V)} {ops : List (Op K V)} {os : List (Obs K V)}
    {o : List K} (hi : d.Init) (ho : Order d o) (h : DictRun d σ ops os υ) (hs : StateInv d σ)
    (hp : υ.cache <+: o) (hn : Obs.ignored ∉ os) (hgood : ∀ op ∈ ops, GoodOp op) :
    pyRun (items d o) (positions σ) ops = os := by
  induction h with
  | nil => rfl
  | cons σ op ob τ ops os υ h1 h2 ih =>
    obtain ⟨h3, h4⟩ := step_mono hs h1
    obtain ⟨h5, h6⟩ := run_mono h2 h3
    rw [pyRun, step_py hi ho hs h1 (h6.trans hp) (fun e => hn (by rw [e]; exact List.mem_cons_self))
      (hgood op List.mem_cons_self)]
    rw [ih h3 hp (fun e => hn (List.mem_cons_of_mem _ e)) fun op hop => hgood op (List.mem_cons_of_mem _ hop)]

/-! ### No dictionary is lost -/

/-- The next key in a given order can be taken. -/
theorem next_exists {d : Dict K V} {o c : List K} {g : Gen (K → Option V)} (ho : Order d o) (hp : c <+: o)
    (hg : GenInv d c g) :
    match o[g.idx]? with
    | some k => ∃ c' g', DictNext d c g (.yield k) c' g' ∧ c' <+: o ∧ g'.idx = g.idx + 1
    | none => DictNext d c g .stop c g := by
  have hol := ho.2.2
  have htake : c.take g.idx = o.take g.idx := by
    obtain ⟨t, rfl⟩ := hp
    rw [List.take_append_of_le_length hg.1]
  cases hk : o[g.idx]? with
  | some k =>
    obtain ⟨hl, hk'⟩ := List.getElem?_eq_some_iff.1 hk
    have hlt : (g.idx : Int) < d.len := by omega
    obtain ⟨v, hv⟩ := Option.isSome_iff_exists.1 ((ho.2.1 k).2 (List.mem_of_getElem? hk))
    have hnin : k ∉ c.take g.idx := by
      rw [htake]
      intro hm
      have h2 : (o.take (g.idx + 1)).Nodup := ho.1.sublist (List.take_sublist _ _)
      rw [take_succ_of hk, List.nodup_append] at h2
      exact h2.2.2 k hm k (by simp) rfl
    obtain ⟨h1, h2⟩ := store_left hnin hv
    have hne : g.arr ≠ fun _ => none := by
      intro he
      have := congrFun (hg.2.symm.trans he) k
      rw [left, if_neg hnin, hv] at this
      cases this
    by_cases hc : g.idx < c.length
    · refine ⟨c, _, DictNext.cached c g k v _ hlt hne (hg.2.trans h1) h2 hc ?_, hp, rfl⟩
      obtain ⟨t, rfl⟩ := hp
      rwa [List.getElem?_append_left hc] at hk
    · have hc' : g.idx = c.length := by have := hg.1; omega
      refine ⟨c ++ [k], _, DictNext.fresh c g k v _ hlt hne (hg.2.trans h1) h2 hc', ?_, rfl⟩
      obtain ⟨t, rfl⟩ := hp
      rw [hc', List.getElem?_append_right (Nat.le_refl _), Nat.sub_self] at hk
      cases t with
      | nil => cases hk
      | cons a t =>
        cases hk
        exact ⟨t, by simp⟩
  | none =>
    have hl : o.length ≤ g.idx := List.getElem?_eq_none_iff.1 hk
    refine DictNext.stop c g (by omega) ?_
    rw [hg.2, htake, List.take_of_length_le hl]
    funext k
    by_cases hm : k ∈ o
    · simp [left, hm]
    · rw [left, if_neg hm]
      cases hv : d.arr k with
      | none => rfl
      | some v => exact absurd ((ho.2.1 k).1 (by rw [hv]; rfl)) hm

theorem step_exists {d : Dict K V} {o : List K} {σ : State K (K → Option V)} (hi : d.Init) (ho : Order d o)
    (hs : StateInv d σ) (hp : σ.cache <+: o) (op : Op K V) (hgood : GoodOp op) :
    ∃ τ, DictStep d σ op (pyStep (items d o) (positions σ) op).1 τ ∧ τ.cache <+: o ∧
      positions τ = (pyStep (items d o) (positions σ) op).2 := by
  have key : ∀ ob τ, DictStep d σ op ob τ → τ.cache <+: o → ob ≠ .ignored →
      ∃ τ, DictStep d σ op (pyStep (items d o) (positions σ) op).1 τ ∧ τ.cache <+: o ∧
      positions τ = (pyStep (items d o) (positions σ) op).2 := by
    intro ob τ h1 h2 h3
    rw [step_py hi ho hs h1 h2 h3 hgood]
    exact ⟨τ, h1, h2, rfl⟩
  cases op with
  | iter => exact key _ _ (.iter σ) hp (by simp)
  | next i =>
    cases hg : σ.gens[i]? with
    | none => exact key _ _ (.noIter σ i hg) hp (by simp)
    | some g =>
      have := next_exists ho hp (hs.2 g (List.mem_of_getElem? hg))
      cases hk : o[g.idx]? with
      | some k =>
        rw [hk] at this
        obtain ⟨c', g', h1, h2, -⟩ := this
        exact key _ _ (.next σ i g _ c' g' hg h1) h2 (by simp)
      | none =>
        rw [hk] at this
        exact key _ _ (.next σ i g _ _ g hg this) hp (by simp)
  | get k =>
    refine key _ _ (.get σ k) hp ?_
    rw [get_eq hi]
    cases d.arr k <;> simp
  | contains k =>
    refine key _ _ (.contains σ k) hp ?_
    rw [contains_eq hi]
    simp
  | len => exact key _ _ (.len σ) hp (by simp)
  | truth => exact key _ _ (.truth σ) hp (by simp)
  | eq other =>
    refine key _ _ (.eq σ other) hp ?_
    rw [eq_eq hi ho hgood]
    simp

theorem run_exists {d : Dict K V} {o : List K} (hi : d.Init) (ho : Order d o) (ops : List (Op K V))
    (hgood : ∀ op ∈ ops, GoodOp op) (σ : State K (K → Option V)) (hs : StateInv d σ) (hp : σ.cache <+: o) :
    ∃ υ, DictRun d σ ops (pyRun (items d o) (positions σ) ops) υ ∧ υ.cache <+: o := by
  induction ops generalizing σ with
  | nil => exact ⟨σ, .nil σ, hp⟩
  | cons op ops ih =>
    obtain ⟨τ, h1, h2, h3⟩ := step_exists hi ho hs hp op (hgood op List.mem_cons_self)
    obtain ⟨υ, h4, h5⟩ := ih (fun op hop => hgood op (List.mem_cons_of_mem _ hop)) τ (step_mono hs h1).1 h2
    refine ⟨υ, ?_, h5⟩
    rw [pyRun, ← h3]
    exact .cons _ _ _ _ _ _ _ h1 h4

theorem drain_exists {d : Dict K V} {o : List K} (ho : Order d o) (n : Nat) (c : List K) (g : Gen (K → Option V))
    (hc : CacheInv d c) (hg : GenInv d c g) (hp : c <+: o) (hn : o.length ≤ g.idx + n) : ∃ c', DictDrain d c g c' := by
  induction n generalizing c g with
  | zero =>
    have := next_exists ho hp hg
    rw [List.getElem?_eq_none (by omega)] at this
    exact ⟨c, .done _ _ _ _ this⟩
  | succ n ih =>
    have := next_exists ho hp hg
    cases hk : o[g.idx]? with
    | none =>
      rw [hk] at this
      exact ⟨c, .done _ _ _ _ this⟩
    | some k =>
      rw [hk] at this
      obtain ⟨c', g', h1, h2, h3⟩ := this
      obtain ⟨h4, -, h5, -⟩ := next_inv hc hg h1
      obtain ⟨c'', h6⟩ := ih c' g' h4 h5 h2 (by omega)
      exact ⟨c'', .more _ _ _ _ _ _ h1 h6⟩

/-! ### Only inconsistent paths are abandoned -/

theorem next_kept {d : Dict K V} {o c c' : List K} {g g' : Gen (K → Option V)} {ob : Obs K V} (ho : Order d o)
    (hc : CacheInv d c) (hg : GenInv d c g) (h : DictNext d c g ob c' g') : ob ≠ .ignored := by
  have hol := ho.2.2
  have hsub : ∀ k ∈ c.take g.idx, k ∈ o := fun k hk => (ho.2.1 k).1 (hc.2.1 k (List.mem_of_mem_take hk))
  have hnd : (c.take g.idx).Nodup := hc.1.sublist (List.take_sublist _ _)
  have hlen : (c.take g.idx).length = g.idx := by rw [List.length_take]; have := hg.1; omega
  cases h with
  | empty h1 h2 =>
    exfalso
    have hall : ∀ k ∈ o, k ∈ c.take g.idx := by
      intro k hk
      obtain ⟨v, hv⟩ := Option.isSome_iff_exists.1 ((ho.2.1 k).2 hk)
      have := congrFun (hg.2.symm.trans h2) k
      by_cases hm : k ∈ c.take g.idx
      · exact hm
      · rw [left, if_neg hm, hv] at this
        cases this
    have := (List.subperm_of_subset ho.1 hall).length_le
    omega
  | leftover h1 h2 =>
    exfalso
    apply h2
    rw [hg.2]
    have hperm := (List.subperm_of_subset hnd hsub).perm_of_length_le (by omega)
    funext k
    by_cases hm : k ∈ c.take g.idx
    · rw [left, if_pos hm]
    · rw [left, if_neg hm]
      cases hv : d.arr k with
      | none => rfl
      | some v => exact absurd ((hperm.mem_iff).2 ((ho.2.1 k).1 (by rw [hv]; rfl))) hm
  | fresh => simp
  | cached => simp
  | internal => simp
  | stop => simp

theorem step_kept {d : Dict K V} {o : List K} {σ τ : State K (K → Option V)} {op : Op K V} {ob : Obs K V}
    (hi : d.Init) (ho : Order d o) (hs : StateInv d σ) (h : DictStep d σ op ob τ) : ob ≠ .ignored := by
  cases h with
  | iter => simp
  | next i g ob' c g' hg hn => exact next_kept ho hs.1 (hs.2 g (List.mem_of_getElem? hg)) hn
  | noIter => simp
  | get k =>
    rw [get_eq hi]
    cases d.arr k <;> simp
  | contains k => rw [contains_eq hi]; simp
  | len => simp
  | truth => simp
  | eq other =>
    rw [Dict.eq, eqLoop_eq hi]
    split <;> simp

theorem run_kept {d : Dict K V} {o : List K} {σ υ : State K (K → Option V)} {ops : List (Op K V)}
    {os : List (Obs K V)} (hi : d.Init) (ho : Order d o) (h : DictRun d σ ops os υ) (hs : StateInv d σ) :
    Obs.ignored ∉ os := by
  induction h with
  | nil => simp
  | cons σ op ob τ ops os υ h1 h2 ih =>
    intro hm
    rcases List.mem_cons.1 hm with h | h
    · exact step_kept hi ho hs h1 h.symm
    · exact ih (step_mono hs h1).1 h

end Verif.Arrays
