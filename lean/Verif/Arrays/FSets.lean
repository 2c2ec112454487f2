import Verif.Arrays.Dicts
/-
A symbolic set is a symbolic dictionary whose values do not matter.
-/
set_option linter.unusedSectionVars false

namespace Verif.Arrays

variable {K : Type} [DecidableEq K]

/-- Members are keys. -/
def conv (a : K → Bool) : K → Option Unit := fun k => if a k = true then some () else none

theorem conv_inj {a b : K → Bool} (h : conv a = conv b) : a = b := by
  funext k
  have := congrFun h k
  simp only [conv] at this
  cases ha : a k <;> cases hb : b k <;> simp [ha, hb] at this ⊢

theorem conv_store (a : K → Bool) (k : K) : conv (store a k true) = store (conv a) k (some ()) := by
  funext j
  by_cases e : j = k <;> simp [conv, store, e]

theorem conv_empty : conv (fun _ : K => false) = fun _ => none := by funext k; simp [conv]

theorem conv_eq_empty {a : K → Bool} : (conv a = fun _ => none) ↔ a = fun _ => false :=
  ⟨fun h => conv_inj (h.trans conv_empty.symm), fun h => h ▸ conv_empty⟩

theorem conv_none {a : K → Bool} {k : K} : conv a k = none ↔ a k = false := by
  cases h : a k <;> simp [conv, h]

theorem conv_isSome {a : K → Bool} {k : K} : (conv a k).isSome = a k := by
  cases h : a k <;> simp [conv, h]

/-- Every array is one of a set. -/
def unconv (a : K → Option Unit) : K → Bool := fun k => (a k).isSome

theorem conv_unconv (a : K → Option Unit) : conv (unconv a) = a := by
  funext k
  cases h : a k <;> simp [conv, unconv, h]

/-- A set as a dictionary. -/
def asDict (s : FSet K) : Dict K Unit := ⟨conv s.arr, s.len⟩

/-- A generator of a set as one of a dictionary. -/
def asGen (g : Gen (K → Bool)) : Gen (K → Option Unit) := ⟨g.idx, conv g.arr⟩

theorem asDict_init {s : FSet K} : (asDict s).Init ↔ s.Init := by
  simp only [Dict.Init, FSet.Init, asDict, conv_eq_empty]

theorem next_asDict {s : FSet K} {c c' : List K} {g g' : Gen (K → Bool)} {o : Obs K Unit}
    (hc : CacheInv (asDict s) c) (h : SetNext s c g o c' g') : DictNext (asDict s) c (asGen g) o c' (asGen g') := by
  cases h with
  | cached k rem h1 h2 h3 =>
    obtain ⟨hl, -⟩ := List.getElem?_eq_some_iff.1 h1
    have hlen : (c.length : Int) ≤ s.len := hc.2.2
    refine DictNext.cached c (asGen g) k () (conv rem) ?_ ?_ ?_ (conv_none.2 h3) hl h1
    · show (g.idx : Int) < s.len
      omega
    · intro he
      have := congrFun (conv_eq_empty.1 he) k
      rw [h2] at this
      simp [store] at this
    · show conv g.arr = _
      rw [h2, conv_store]
  | empty h1 h2 h3 => exact DictNext.empty c (asGen g) h2 (conv_eq_empty.2 h3)
  | fresh k rem h1 h2 h3 h4 h5 h6 =>
    refine DictNext.fresh c (asGen g) k () (conv rem) h2 (fun he => h3 (conv_eq_empty.1 he)) ?_ (conv_none.2 h5) h6
    show conv g.arr = _
    rw [h4, conv_store]
  | internal h1 h2 h3 h4 => exact DictNext.internal c (asGen g) h2 (fun he => h3 (conv_eq_empty.1 he)) h4
  | leftover h1 h2 h3 => exact DictNext.leftover c (asGen g) h2 fun he => h3 (conv_eq_empty.1 he)
  | stop h1 h2 h3 => exact DictNext.stop c (asGen g) h2 (conv_eq_empty.2 h3)

/-- What holds of a state. -/
def SetInv (s : FSet K) (σ : State K (K → Bool)) : Prop :=
  CacheInv (asDict s) σ.cache ∧ ∀ g ∈ σ.gens, GenInv (asDict s) σ.cache (asGen g)

theorem set_next_inv {s : FSet K} {c c' : List K} {g g' : Gen (K → Bool)} {o : Obs K Unit}
    (hc : CacheInv (asDict s) c) (hg : GenInv (asDict s) c (asGen g)) (h : SetNext s c g o c' g') :
    CacheInv (asDict s) c' ∧ c <+: c' ∧ GenInv (asDict s) c' (asGen g') ∧
      ((o = .ignored ∧ g' = g ∧ c' = c) ∨ (o = .stop ∧ g' = g ∧ g.idx = c.length ∧ Order (asDict s) c ∧ c' = c) ∨
        ∃ k, o = .yield k ∧ c'[g.idx]? = some k ∧ g'.idx = g.idx + 1) := by
  obtain ⟨h1, h2, h3, h4⟩ := next_inv hc hg (next_asDict hc h)
  refine ⟨h1, h2, h3, ?_⟩
  rcases h4 with h4 | h4 | ⟨k, h4⟩
  · refine Or.inl ⟨h4.1, ?_, h4.2.2⟩
    cases h with
    | empty => rfl
    | leftover => rfl
    | _ => simp at h4
  · refine Or.inr (Or.inl ⟨h4.1, ?_, h4.2.2⟩)
    cases h with
    | stop => rfl
    | _ => simp at h4
  · exact Or.inr (Or.inr ⟨k, h4⟩)

theorem set_gen_start (s : FSet K) (c : List K) : GenInv (asDict s) c (asGen ⟨0, s.arr⟩) := gen_start (asDict s) c

theorem set_start_inv {s : FSet K} (hi : s.Init) : SetInv s ⟨[], []⟩ :=
  ⟨⟨List.nodup_nil, by simp, by simpa [asDict] using hi.1⟩, by simp⟩

/-! ### Comparison -/

theorem drop_of_get {o : List K} {i : Nat} {k : K} (h : o[i]? = some k) : o.drop i = k :: o.drop (i + 1) := by
  obtain ⟨hl, rfl⟩ := List.getElem?_eq_some_iff.1 h
  exact List.drop_eq_getElem_cons hl

theorem eqLoop_inv {s : FSet K} {other : List K} {c c' : List K} {g : Gen (K → Bool)} {ob : Obs K Unit}
    (h : SetEqLoop s other c g ob c') (hc : CacheInv (asDict s) c) (hg : GenInv (asDict s) c (asGen g)) :
    CacheInv (asDict s) c' ∧ c <+: c' ∧ ∀ o, Order (asDict s) o → c' <+: o → ob ≠ .ignored →
      ob = .bool ((o.drop g.idx).all fun k => decide (k ∈ other)) := by
  induction h with
  | finished c g c' g' hn =>
    obtain ⟨h1, h2, h3, h4 | h4 | ⟨k, h4, -⟩⟩ := set_next_inv hc hg hn
    · cases h4.1
    · obtain ⟨-, rfl, h5, h6, rfl⟩ := h4
      refine ⟨h1, h2, fun o ho hp _ => ?_⟩
      rw [order_prefix h6 ho hp] at h5
      rw [h5]
      simp
    · cases h4
  | found c g k c' g' o c'' hn hm _ ih =>
    obtain ⟨h1, h2, h3, h4 | h4 | ⟨j, h4, h5, h6⟩⟩ := set_next_inv hc hg hn
    · cases h4.1
    · cases h4.1
    · cases h4
      obtain ⟨h7, h8, h9⟩ := ih h1 h3
      refine ⟨h7, h2.trans h8, fun o' ho hp hne => ?_⟩
      rw [h9 o' ho hp hne, drop_of_get (getElem?_of_prefix (h8.trans hp) h5), h6]
      simp [hm]
  | missing c g k c' g' hn hm =>
    obtain ⟨h1, h2, h3, h4 | h4 | ⟨j, h4, h5, h6⟩⟩ := set_next_inv hc hg hn
    · cases h4.1
    · cases h4.1
    · cases h4
      refine ⟨h1, h2, fun o' ho hp _ => ?_⟩
      rw [drop_of_get (getElem?_of_prefix hp h5)]
      simp [hm]
  | ignored c g c' g' hn =>
    obtain ⟨h1, h2, h3, -⟩ := set_next_inv hc hg hn
    exact ⟨h1, h2, fun o' ho hp hne => absurd rfl hne⟩
  | internal c g c' g' hn =>
    obtain ⟨h1, h2, h3, h4 | h4 | ⟨j, h4, -⟩⟩ := set_next_inv hc hg hn
    · cases h4.1
    · cases h4.1
    · cases h4

theorem sameElems_iff (a b : List K) : sameElems a b = true ↔ ∀ e, e ∈ a ↔ e ∈ b := by
  simp only [sameElems, Bool.and_eq_true, List.all_eq_true, List.contains_eq_mem, decide_eq_true_eq]
  exact ⟨fun h e => ⟨h.1 e, h.2 e⟩, fun h => ⟨fun e => (h e).1, fun e => (h e).2⟩⟩

theorem setEq_inv {s : FSet K} {other : List K} {c c' : List K} {ob : Obs K Unit}
    (h : SetEq s other c ob c') (hc : CacheInv (asDict s) c) (hn : other.Nodup) :
    CacheInv (asDict s) c' ∧ c <+: c' ∧ ∀ o, Order (asDict s) o → c' <+: o → ob ≠ .ignored →
      ob = .bool (sameElems o other) := by
  cases h with
  | lens hl =>
    refine ⟨hc, List.prefix_refl _, fun o ho hp _ => ?_⟩
    congr 1
    symm
    rw [Bool.eq_false_iff]
    intro hs
    have := ((List.perm_ext_iff_of_nodup ho.1 hn).2 ((sameElems_iff _ _).1 hs)).length_eq
    have h2 : (o.length : Int) = s.len := ho.2.2
    omega
  | loop _ _ hl hloop =>
    obtain ⟨h1, h2, h3⟩ := eqLoop_inv hloop hc (set_gen_start s c)
    refine ⟨h1, h2, fun o ho hp hne => ?_⟩
    rw [h3 o ho hp hne]
    congr 1
    rw [Bool.eq_iff_iff, sameElems_iff]
    simp only [List.drop_zero, List.all_eq_true, decide_eq_true_eq]
    constructor
    · intro hall
      have h4 : (o.length : Int) = s.len := ho.2.2
      have hp := (List.subperm_of_subset ho.1 hall).perm_of_length_le (by omega)
      exact fun e => hp.mem_iff
    · exact fun hs e he => (hs e).1 he

/-! ### Runs -/

theorem set_step_mono {s : FSet K} {σ τ : State K (K → Bool)} {op : SetOp K} {o : Obs K Unit} (hs : SetInv s σ)
    (hgood : GoodSetOp op) (h : SetStep s σ op o τ) : SetInv s τ ∧ σ.cache <+: τ.cache := by
  cases h with
  | iter =>
    refine ⟨⟨hs.1, ?_⟩, List.prefix_refl _⟩
    intro g hg
    rcases List.mem_append.1 hg with h | h
    · exact hs.2 g h
    · simp only [List.mem_singleton] at h
      subst h
      exact set_gen_start s _
  | next i g ob c g' hg hn =>
    obtain ⟨h1, h2, h3, -⟩ := set_next_inv hs.1 (hs.2 g (List.mem_of_getElem? hg)) hn
    refine ⟨⟨h1, ?_⟩, h2⟩
    intro g'' hg''
    rcases List.mem_or_eq_of_mem_set hg'' with h | h
    · exact (hs.2 g'' h).mono h2
    · subst h
      exact h3
  | noIter => exact ⟨hs, List.prefix_refl _⟩
  | contains => exact ⟨hs, List.prefix_refl _⟩
  | len => exact ⟨hs, List.prefix_refl _⟩
  | truth => exact ⟨hs, List.prefix_refl _⟩
  | eq other ob c he =>
    obtain ⟨h1, h2, -⟩ := setEq_inv he hs.1 hgood
    exact ⟨⟨h1, fun g hg => (hs.2 g hg).mono h2⟩, h2⟩

theorem set_run_mono {s : FSet K} {σ υ : State K (K → Bool)} {ops : List (SetOp K)} {os : List (Obs K Unit)}
    (h : SetRun s σ ops os υ) (hs : SetInv s σ) (hgood : ∀ op ∈ ops, GoodSetOp op) :
    SetInv s υ ∧ σ.cache <+: υ.cache := by
  induction h with
  | nil => exact ⟨hs, List.prefix_refl _⟩
  | cons σ op o τ ops os υ h1 h2 ih =>
    obtain ⟨h3, h4⟩ := set_step_mono hs (hgood op List.mem_cons_self) h1
    obtain ⟨h5, h6⟩ := ih h3 fun op hop => hgood op (List.mem_cons_of_mem _ hop)
    exact ⟨h5, h4.trans h6⟩

theorem set_step_py {s : FSet K} {σ τ : State K (K → Bool)} {op : SetOp K} {ob : Obs K Unit} {o : List K}
    (ho : Order (asDict s) o) (hs : SetInv s σ) (h : SetStep s σ op ob τ) (hp : τ.cache <+: o)
    (hn : ob ≠ .ignored) (hgood : GoodSetOp op) : pySetStep o (positions σ) op = (ob, positions τ) := by
  have hol : (o.length : Int) = s.len := ho.2.2
  cases h with
  | iter => simp [pySetStep, positions]
  | noIter i hg =>
    have : (positions σ)[i]? = none := by simp [positions, hg]
    simp only [pySetStep, this]
  | next i g ob' c g' hg hnx =>
    have hgi := hs.2 g (List.mem_of_getElem? hg)
    obtain ⟨h1, h2, h3, h4 | h4 | h4⟩ := set_next_inv hs.1 hgi hnx
    · exact absurd h4.1 hn
    · obtain ⟨rfl, rfl, h5, h6, rfl⟩ := h4
      have hco : σ.cache = o := order_prefix h6 ho hp
      have : o[g'.idx]? = none := by rw [h5, hco]; simp
      simp only [pySetStep, positions_get hg, this, positions_set_same hg]
    · obtain ⟨k, rfl, h5, h6⟩ := h4
      have : o[g.idx]? = some k := getElem?_of_prefix hp h5
      simp only [pySetStep, positions_get hg, this]
      simp [positions, List.map_set, h6]
  | contains k =>
    simp only [pySetStep]
    congr 2
    rw [Bool.eq_iff_iff]
    simp only [List.contains_eq_mem, decide_eq_true_eq]
    rw [← ho.2.1 k]
    show (conv s.arr k).isSome = true ↔ _
    rw [conv_isSome]
  | len =>
    simp only [pySetStep]
    rw [hol]
  | truth =>
    simp only [pySetStep]
    congr 2
    rw [Bool.eq_iff_iff]
    simp only [Bool.not_eq_true', decide_eq_true_eq]
    rw [List.isEmpty_eq_false_iff, ← List.length_pos_iff]
    omega
  | eq other ob' c he =>
    obtain ⟨-, -, h3⟩ := setEq_inv he hs.1 hgood
    simp only [pySetStep]
    rw [h3 o ho hp hn]
    rfl

theorem set_run_py {s : FSet K} {σ υ : State K (K → Bool)} {ops : List (SetOp K)} {os : List (Obs K Unit)}
    {o : List K} (ho : Order (asDict s) o) (h : SetRun s σ ops os υ) (hs : SetInv s σ) (hp : υ.cache <+: o)
    (hn : Obs.ignored ∉ os) (hgood : ∀ op ∈ ops, GoodSetOp op) : pySetRun o (positions σ) ops = os := by
  induction h with
  | nil => rfl
  | cons σ op ob τ ops os υ h1 h2 ih =>
    have hg1 := hgood op List.mem_cons_self
    have hg2 : ∀ op ∈ ops, GoodSetOp op := fun op hop => hgood op (List.mem_cons_of_mem _ hop)
    obtain ⟨h3, h4⟩ := set_step_mono hs hg1 h1
    obtain ⟨h5, h6⟩ := set_run_mono h2 h3 hg2
    rw [pySetRun, set_step_py ho hs h1 (h6.trans hp) (fun e => hn (by rw [e]; exact List.mem_cons_self)) hg1]
    rw [ih h3 hp (fun e => hn (List.mem_cons_of_mem _ e)) hg2]

/-! ### The deferred assumption -/

theorem foldl_store (l : List K) (a : K → Bool) (k : K) :
    (l.foldl (fun a k => store a k true) a) k = (a k || decide (k ∈ l)) := by
  induction l generalizing a with
  | nil => simp
  | cons j l ih =>
    rw [List.foldl_cons, ih]
    by_cases e : k = j
    · subst e
      simp [store]
    · simp [store, e]

theorem consistent_order {s : FSet K} (h : s.Consistent) {c : List K} (hc : CacheInv (asDict s) c) :
    ∃ o, Order (asDict s) o ∧ c <+: o := by
  obtain ⟨l, hl, hd, ha⟩ := h
  have hnd : l.Nodup := by
    match l, hd with
    | [], _ => exact List.nodup_nil
    | [a], _ => simp
    | a :: b :: r, hd => exact hd (by simp)
  have hmem : ∀ k, ((asDict s).arr k).isSome = true ↔ k ∈ l := by
    intro k
    show (conv s.arr k).isSome = true ↔ _
    rw [conv_isSome, ← ha, foldl_store]
    simp
  have hnd2 : (c ++ l.filter fun k => decide (k ∉ c)).Nodup := by
    rw [List.nodup_append]
    refine ⟨hc.1, hnd.filter _, ?_⟩
    intro a h1 b h2
    rintro rfl
    have := List.mem_filter.1 h2
    simp [h1] at this
  have hm2 : ∀ k, k ∈ (c ++ l.filter fun k => decide (k ∉ c)) ↔ k ∈ l := by
    intro k
    simp only [List.mem_append, List.mem_filter, decide_eq_true_eq]
    constructor
    · rintro (h1 | h1)
      · exact (hmem k).1 (hc.2.1 k h1)
      · exact h1.1
    · intro h1
      by_cases h2 : k ∈ c
      · exact Or.inl h2
      · exact Or.inr ⟨h1, h2⟩
  refine ⟨_, ⟨hnd2, fun k => (hmem k).trans (hm2 k).symm, ?_⟩, List.prefix_append _ _⟩
  have hp := (List.perm_ext_iff_of_nodup hnd2 hnd).2 hm2
  show ((_ : Nat) : Int) = s.len
  rw [hp.length_eq, hl]

theorem order_consistent {s : FSet K} {o : List K} (h : Order (asDict s) o) : s.Consistent := by
  refine ⟨o, h.2.2, fun _ => h.1, ?_⟩
  funext k
  rw [foldl_store]
  have := h.2.1 k
  change (conv s.arr k).isSome = true ↔ _ at this
  rw [conv_isSome] at this
  rw [Bool.eq_iff_iff]
  simp [this]

/-! ### No set is lost -/

theorem set_next_exists {s : FSet K} {o c : List K} {g : Gen (K → Bool)} (ho : Order (asDict s) o) (hp : c <+: o)
    (hc : CacheInv (asDict s) c) (hg : GenInv (asDict s) c (asGen g)) :
    match o[g.idx]? with
    | some k => ∃ c' g', SetNext s c g (.yield k) c' g' ∧ c' <+: o ∧ g'.idx = g.idx + 1
    | none => SetNext s c g .stop c g := by
  have h := next_exists ho hp hg
  have hidx : (asGen g).idx = g.idx := rfl
  rw [hidx] at h
  cases hk : o[g.idx]? with
  | some k =>
    rw [hk] at h
    obtain ⟨c', g', h1, h2, h3⟩ := h
    refine ⟨c', ⟨g.idx + 1, unconv g'.arr⟩, ?_, h2, rfl⟩
    cases h1 with
    | fresh _ v rem h4 h5 h6 h7 h8 =>
      refine SetNext.fresh c g k (unconv rem) ?_ h4 (fun he => h5 (conv_eq_empty.2 he)) ?_ ?_ h8
      · exact List.getElem?_eq_none (Nat.le_of_eq h8.symm)
      · apply conv_inj
        rw [conv_store, conv_unconv]
        exact h6
      · simp [unconv, h7]
    | cached _ v rem h4 h5 h6 h7 h8 h9 =>
      refine SetNext.cached c g k (unconv rem) h9 ?_ ?_
      · apply conv_inj
        rw [conv_store, conv_unconv]
        exact h6
      · simp [unconv, h7]
  | none =>
    rw [hk] at h
    obtain ⟨-, -, -, h4 | h4 | ⟨k, h4, -⟩⟩ := next_inv hc hg h
    · cases h4.1
    · cases h with
      | stop h5 h6 =>
        exact SetNext.stop c g (List.getElem?_eq_none (Nat.le_of_eq h4.2.2.1.symm)) h5 (conv_eq_empty.1 h6)
    · cases h4

theorem eqLoop_exists {s : FSet K} {o : List K} (other : List K) (ho : Order (asDict s) o) (n : Nat) (c : List K)
    (g : Gen (K → Bool)) (hc : CacheInv (asDict s) c) (hg : GenInv (asDict s) c (asGen g)) (hp : c <+: o)
    (hn : o.length ≤ g.idx + n) : ∃ b c', SetEqLoop s other c g (.bool b) c' ∧ c' <+: o := by
  induction n generalizing c g with
  | zero =>
    have := set_next_exists ho hp hc hg
    rw [List.getElem?_eq_none (by omega)] at this
    exact ⟨true, c, .finished _ _ _ _ this, hp⟩
  | succ n ih =>
    have := set_next_exists ho hp hc hg
    cases hk : o[g.idx]? with
    | none =>
      rw [hk] at this
      exact ⟨true, c, .finished _ _ _ _ this, hp⟩
    | some k =>
      rw [hk] at this
      obtain ⟨c', g', h1, h2, h3⟩ := this
      obtain ⟨h4, -, h5, -⟩ := set_next_inv hc hg h1
      by_cases hm : k ∈ other
      · obtain ⟨b, c'', h6, h7⟩ := ih c' g' h4 h5 h2 (by omega)
        exact ⟨b, c'', .found _ _ _ _ _ _ _ h1 hm h6, h7⟩
      · exact ⟨false, c', .missing _ _ _ _ _ h1 hm, h2⟩

theorem set_step_exists {s : FSet K} {o : List K} {σ : State K (K → Bool)} (ho : Order (asDict s) o)
    (hs : SetInv s σ) (hp : σ.cache <+: o) (op : SetOp K) (hgood : GoodSetOp op) :
    ∃ τ, SetStep s σ op (pySetStep o (positions σ) op).1 τ ∧ τ.cache <+: o ∧
      positions τ = (pySetStep o (positions σ) op).2 := by
  have key : ∀ ob τ, SetStep s σ op ob τ → τ.cache <+: o → ob ≠ .ignored →
      ∃ τ, SetStep s σ op (pySetStep o (positions σ) op).1 τ ∧ τ.cache <+: o ∧
      positions τ = (pySetStep o (positions σ) op).2 := by
    intro ob τ h1 h2 h3
    rw [set_step_py ho hs h1 h2 h3 hgood]
    exact ⟨τ, h1, h2, rfl⟩
  cases op with
  | iter => exact key _ _ (.iter σ) hp (by simp)
  | next i =>
    cases hg : σ.gens[i]? with
    | none => exact key _ _ (.noIter σ i hg) hp (by simp)
    | some g =>
      have := set_next_exists ho hp hs.1 (hs.2 g (List.mem_of_getElem? hg))
      cases hk : o[g.idx]? with
      | some k =>
        rw [hk] at this
        obtain ⟨c', g', h1, h2, -⟩ := this
        exact key _ _ (.next σ i g _ c' g' hg h1) h2 (by simp)
      | none =>
        rw [hk] at this
        exact key _ _ (.next σ i g _ _ g hg this) hp (by simp)
  | contains k => exact key _ _ (.contains σ k) hp (by simp)
  | len => exact key _ _ (.len σ) hp (by simp)
  | truth => exact key _ _ (.truth σ) hp (by simp)
  | eq other =>
    by_cases hl : s.len = other.length
    · obtain ⟨b, c', h1, h2⟩ := eqLoop_exists other ho o.length σ.cache ⟨0, s.arr⟩ hs.1 (set_gen_start s _) hp
        (by omega)
      exact key _ _ (.eq σ other _ c' (.loop _ _ _ hl h1)) h2 (by simp)
    · exact key _ _ (.eq σ other _ _ (.lens _ hl)) hp (by simp)

theorem set_run_exists {s : FSet K} {o : List K} (ho : Order (asDict s) o) (ops : List (SetOp K))
    (hgood : ∀ op ∈ ops, GoodSetOp op) (σ : State K (K → Bool)) (hs : SetInv s σ) (hp : σ.cache <+: o) :
    ∃ υ, SetRun s σ ops (pySetRun o (positions σ) ops) υ ∧ υ.cache <+: o := by
  induction ops generalizing σ with
  | nil => exact ⟨σ, .nil σ, hp⟩
  | cons op ops ih =>
    have hg1 := hgood op List.mem_cons_self
    obtain ⟨τ, h1, h2, h3⟩ := set_step_exists ho hs hp op hg1
    obtain ⟨υ, h4, h5⟩ := ih (fun op hop => hgood op (List.mem_cons_of_mem _ hop)) τ (set_step_mono hs hg1 h1).1 h2
    refine ⟨υ, ?_, h5⟩
    rw [pySetRun, ← h3]
    exact .cons _ _ _ _ _ _ _ h1 h4

/-! ### Only inconsistent paths are abandoned -/

theorem set_next_kept {s : FSet K} {o c c' : List K} {g g' : Gen (K → Bool)} {ob : Obs K Unit}
    (ho : Order (asDict s) o) (hc : CacheInv (asDict s) c) (hg : GenInv (asDict s) c (asGen g))
    (h : SetNext s c g ob c' g') : ob ≠ .ignored := next_kept ho hc hg (next_asDict hc h)

theorem eqLoop_kept {s : FSet K} {other o : List K} {c c' : List K} {g : Gen (K → Bool)} {ob : Obs K Unit}
    (ho : Order (asDict s) o) (h : SetEqLoop s other c g ob c') (hc : CacheInv (asDict s) c)
    (hg : GenInv (asDict s) c (asGen g)) : ob ≠ .ignored := by
  induction h with
  | finished => simp
  | found c g k c' g' o' c'' hn hm _ ih =>
    obtain ⟨h1, h2, h3, -⟩ := set_next_inv hc hg hn
    exact ih h1 h3
  | missing => simp
  | ignored c g c' g' hn => exact absurd rfl (set_next_kept ho hc hg hn)
  | internal => simp

theorem set_run_kept {s : FSet K} {o : List K} {σ υ : State K (K → Bool)} {ops : List (SetOp K)}
    {os : List (Obs K Unit)} (ho : Order (asDict s) o) (h : SetRun s σ ops os υ) (hs : SetInv s σ)
    (hgood : ∀ op ∈ ops, GoodSetOp op) : Obs.ignored ∉ os := by
  induction h with
  | nil => simp
  | cons σ op ob τ ops os υ h1 h2 ih =>
    intro hm
    rcases List.mem_cons.1 hm with h | h
    · have : ob ≠ .ignored := by
        cases h1 with
        | iter => simp
        | next i g ob' c g' hg hn => exact set_next_kept ho hs.1 (hs.2 g (List.mem_of_getElem? hg)) hn
        | noIter => simp
        | contains => simp
        | len => simp
        | truth => simp
        | eq other ob' c he =>
          cases he with
          | lens => simp
          | loop _ _ _ hl => exact eqLoop_kept ho hl hs.1 (set_gen_start s _)
      exact this h.symm
    · exact ih (set_step_mono hs (hgood op List.mem_cons_self) h1).1
        (fun op hop => hgood op (List.mem_cons_of_mem _ hop)) h

end Verif.Arrays
