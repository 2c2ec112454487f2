import Verif.Sigs.Ctor

/-! Theorems on signatures of constructors. -/
namespace Verif.Sigs

/-- Full statement (that of the documentation): the intersection of two signatures accepts all calls that one of them accepts, if what may be given
by keyword is given by keyword.
Proved: it accepts all such calls that both of them accept, if it can be made at all and the same name means the same kind of parameter in both. -/
theorem covers_partial (u : Nat → Nat → Bool) (s1 s2 out : List Param) (h1 : Distinct s1) (h2 : Distinct s2) (hc : NoClash s1 s2)
    (ho : intersect u s1 s2 = some out) (n : Nat) (kws : List Nat) (k1 : KeywordStyle s1 n) (k2 : KeywordStyle s2 n)
    (a1 : Accepts s1 n kws) (a2 : Accepts s2 n kws) : Accepts out n kws := by
  have hout : out = (parts u s1 s2).foldl ins [] := by
    unfold intersect mkSig at ho
    split at ho
    · rw [Option.some.injEq] at ho
      rw [← ho]
      exact foldl_put _ [] (by simp) (by simpa using parts_functional h1 h2 hc)
    · simp at ho
  have hmem : ∀ x, x ∈ out ↔ x ∈ parts u s1 s2 := by
    intro x; rw [hout, mem_foldl_ins]; simp
  have hpos : posOnly out = zipPos u (squishy s1) (squishy s2) (posOnly s1) (posOnly s2) := by
    unfold posOnly
    rw [hout, filter_foldl_ins]
    have e1 : (zipPos u (squishy s1) (squishy s2) (posOnly s1) (posOnly s2)).filter (·.kind = .posOnly) =
        zipPos u (squishy s1) (squishy s2) (posOnly s1) (posOnly s2) := by
      rw [List.filter_eq_self]
      intro x hx
      rcases mem_zip hx with h | h
      · simpa using (mem_posOnly.1 h).2
      · simpa using (mem_posOnly.1 h).2
    have e2 : ((interleave ((keyed s1).map (·.name)) ((keyed s2).map (·.name))).filterMap (keyParam u s1 s2)).filter (·.kind = .posOnly) = [] := by
      rw [List.filter_eq_nil_iff]
      intro x hx
      obtain ⟨k, _, hk⟩ := List.mem_filterMap.1 hx
      simp [(keyParam_spec hk).2.1]
    have e3 : (varParams s1 s2).filter (·.kind = .posOnly) = [] := by
      rw [List.filter_eq_nil_iff]
      intro x hx
      rcases (mem_varParams hx).2 with h | h <;> simp [h]
    rw [List.filter_append, List.filter_append, e1, e2, e3, List.append_nil, List.append_nil]
    rw [List.filter_nil, foldl_ins_nodup _ [] (by simpa using nodup_of_names (zip_names h1 h2 hc))]
    rfl
  have hnokw : out.filter (·.kind = .posKw) = [] := by
    rw [List.filter_eq_nil_iff]
    intro x hx
    rcases part_from ((hmem x).1 hx) with ⟨h, _⟩ | ⟨h, _⟩ | ⟨h | h, _⟩ <;> simp [h]
  have hpositional : positional out = zipPos u (squishy s1) (squishy s2) (posOnly s1) (posOnly s2) := by
    rw [positional, hnokw, hpos, List.append_nil]
  have kindPos : ∀ x ∈ positional out, x.kind = .posOnly := by
    intro x hx
    rw [hpositional, ← hpos] at hx
    exact (mem_posOnly.1 hx).2
  have sq : ∀ s : List Param, (∃ p ∈ s, p.kind = .varPos) → squishy s = true := by
    rintro s ⟨p, hp, hk⟩
    obtain ⟨q, hq⟩ := varPos_of_mem hp hk
    simp [squishy, hq]
  have sqk : ∀ s : List Param, (∃ p ∈ s, p.kind = .varKw) → squishy s = true := by
    rintro s ⟨p, hp, hk⟩
    obtain ⟨q, hq⟩ := varKw_of_mem hp hk
    simp [squishy, hq]
  refine ⟨?_, ?_, ?_, ?_, ?_⟩
  · rw [hpositional, zipPos_length]
    rcases accepts_few a1 k1 with f1 | f1 <;> rcases accepts_few a2 k2 with f2 | f2
    · left; cases squishy s1 <;> cases squishy s2 <;> simp <;> omega
    · left; rw [sq s2 f2]; cases squishy s1 <;> simp <;> omega
    · left; rw [sq s1 f1]; cases squishy s2 <;> simp <;> omega
    · right
      obtain ⟨p, hp, hk⟩ := f1
      obtain ⟨q, hq, hj⟩ := f2
      obtain ⟨p', e1⟩ := varPos_of_mem hp hk
      obtain ⟨q', e2⟩ := varPos_of_mem hq hj
      refine ⟨p', (hmem p').2 (List.mem_append_right _ ?_), (varPos_some e1).2⟩
      simp [varParams, e1, e2]
  · intro p hp _
    obtain ⟨i, hi⟩ := List.getElem?_of_mem hp
    rw [List.getElem?_drop, hpositional] at hi
    rcases zipPos_get _ _ _ _ _ _ _ hi with h | h
    · exact accepts_pos a1 (Nat.le_add_right n i) h
    · exact accepts_pos a2 (Nat.le_add_right n i) h
  · intro p hp hk
    have := kindPos p (List.mem_of_mem_drop hp)
    rw [hk] at this; simp at this
  · intro p hp hk
    rcases part_from ((hmem p).1 hp) with ⟨h, _⟩ | ⟨_, h⟩ | ⟨h | h, _⟩
    · rw [hk] at h; simp at h
    · obtain ⟨_, _, q, hq, hqn, hqd, _⟩ := keyParam_spec h
      rcases hq with hq | hq
      · rw [← hqn, ← hqd]; exact accepts_key a1 k1 hq
      · rw [← hqn, ← hqd]; exact accepts_key a2 k2 hq
    · rw [hk] at h; simp at h
    · rw [hk] at h; simp at h
  · intro k hk
    have put : (((∃ p ∈ keyed s1, p.name = k) ∧ ((∃ p ∈ keyed s2, p.name = k) ∨ squishy s2 = true)) ∨
      ((∃ p ∈ keyed s2, p.name = k) ∧ squishy s1 = true)) → ∃ p ∈ out, p.kind = .kwOnly ∧ p.name = k := by
      intro h
      obtain ⟨x, hx⟩ := keyParam_some (u := u) h
      refine ⟨x, (hmem x).2 (List.mem_append_left _ (List.mem_append_right _ (List.mem_filterMap.2 ⟨k, ?_, hx⟩))),
        (keyParam_spec hx).2.1, (keyParam_spec hx).1⟩
      rw [mem_interleave]
      rcases h with ⟨⟨p, hp, rfl⟩, _⟩ | ⟨⟨p, hp, rfl⟩, _⟩
      · exact .inl (List.mem_map_of_mem hp)
      · exact .inr (List.mem_map_of_mem hp)
    rcases accepts_keyword a1 hk with f1 | f1 <;> rcases accepts_keyword a2 hk with f2 | f2
    · exact .inl (put (.inl ⟨f1, .inl f2⟩))
    · exact .inl (put (.inl ⟨f1, .inr (sqk s2 f2)⟩))
    · exact .inl (put (.inr ⟨f2, sqk s1 f1⟩))
    · refine .inr (.inr ⟨?_, ?_⟩)
      · obtain ⟨p, hp, hk⟩ := f1
        obtain ⟨q, hq, hj⟩ := f2
        obtain ⟨p', e1⟩ := varKw_of_mem hp hk
        obtain ⟨q', e2⟩ := varKw_of_mem hq hj
        refine ⟨p', (hmem p').2 (List.mem_append_right _ ?_), (varKw_some e1).2⟩
        simp [varParams, e1, e2]
      · intro p hp hk
        have := kindPos p (List.mem_of_mem_take hp)
        rw [hk] at this; simp at this

/-- The hypotheses of `covers_partial` are met: the signatures of `f1(a, /, x, y, **kw)` and `f2(b, /, x, **kw)`, and the call `(1, x=2, y=3)`. -/
example :
    let s1 : List Param := [⟨1, .posOnly, false, 0⟩, ⟨2, .posKw, false, 0⟩, ⟨3, .posKw, false, 0⟩, ⟨9, .varKw, false, 0⟩]
    let s2 : List Param := [⟨4, .posOnly, false, 0⟩, ⟨2, .posKw, false, 0⟩, ⟨9, .varKw, false, 0⟩]
    intersect (fun _ _ => true) s1 s2 =
      some [⟨1, .posOnly, false, 0⟩, ⟨2, .kwOnly, false, 0⟩, ⟨3, .kwOnly, false, 0⟩, ⟨9, .varKw, false, 0⟩] ∧
    Accepts s1 1 [2, 3] ∧ Accepts s2 1 [2, 3] ∧ KeywordStyle s1 1 ∧ KeywordStyle s2 1 := by
  refine ⟨by decide, by decide, by decide, .inl (by decide), .inl (by decide)⟩

/-- Disagreement: the intersection of `f1(x)` and `f2()` does not accept `(x=1)`, which the first one accepts, although "it should cover all the inputs
for each original signature". -/
theorem covers_not_each : ∃ out, intersect (fun _ _ => true) [⟨1, .posKw, false, 0⟩] [] = some out ∧
    Accepts [⟨1, .posKw, false, 0⟩] 0 [1] ∧ ¬ Accepts out 0 [1] := ⟨_, rfl, by decide, by decide⟩

/-- Disagreement: the intersection of two signatures with `*args` cannot be made (`ValueError`) if there is anything that may be given by keyword:
here for `f1(x, *args)` and `f2(x, *args)`. -/
theorem two_args_fail : intersect (fun _ _ => true) [⟨1, .posKw, false, 0⟩, ⟨8, .varPos, false, 0⟩]
    [⟨1, .posKw, false, 0⟩, ⟨8, .varPos, false, 0⟩] = none := by decide

/-- Disagreement: the intersection of `f1(a=1, /, **kw)` and `f2(b, c, /)` cannot be made: the parameter without a default comes last. -/
theorem default_order_fails : intersect (fun _ _ => true) [⟨1, .posOnly, true, 0⟩, ⟨9, .varKw, false, 0⟩]
    [⟨2, .posOnly, false, 0⟩, ⟨3, .posOnly, false, 0⟩] = none := by decide

/-- Disagreement: the intersection of `f1(a, /, **kw)` and `f2(*args, a)` does not accept `(1, a=2)`, which both of them accept: there is one
parameter of each name. -/
theorem name_clash : ∃ out, intersect (fun _ _ => true) [⟨1, .posOnly, false, 0⟩, ⟨9, .varKw, false, 0⟩]
      [⟨8, .varPos, false, 0⟩, ⟨1, .kwOnly, false, 0⟩] = some out ∧
    Accepts [⟨1, .posOnly, false, 0⟩, ⟨9, .varKw, false, 0⟩] 1 [1] ∧ Accepts [⟨8, .varPos, false, 0⟩, ⟨1, .kwOnly, false, 0⟩] 1 [1] ∧
    ¬ Accepts out 1 [1] := ⟨_, rfl, by decide, by decide, by decide⟩

/-- The annotation of each parameter of an intersection that both signatures have by name: the first one if it fits the second, and the second one
otherwise. So it fits both if one of them fits the other. -/
theorem annotation_fits (fits : Nat → Nat → Bool) (refl : ∀ a, fits a a = true) (s1 s2 : List Param) (k : Nat) (p1 p2 : Param)
    (h1 : (keyed s1).find? (·.name = k) = some p1) (h2 : (keyed s2).find? (·.name = k) = some p2)
    (h : fits p1.ann p2.ann = true ∨ fits p2.ann p1.ann = true) :
    ∃ x, keyParam fits s1 s2 k = some x ∧ fits x.ann p1.ann = true ∧ fits x.ann p2.ann = true := by
  unfold keyParam
  rw [h1, h2]
  cases hf : fits p1.ann p2.ann with
  | true => exact ⟨{ p1 with kind := .kwOnly }, by simp [hf], refl _, hf⟩
  | false =>
    rw [hf] at h
    simp only [Bool.false_eq_true, false_or] at h
    exact ⟨{ p2 with kind := .kwOnly }, by simp [hf], h, refl _⟩

/-! ## Constructors -/

/-- The first argument is the object: a call is accepted with it exactly if it is accepted without it by the signature without the first parameter,
and does not give the first parameter by keyword. -/
theorem strip_exact (first : Param) (rest : List Param) (hk : first.kind = .posOnly ∨ first.kind = .posKw)
    (hv : mkSig (first :: rest) ≠ none) (hd : Distinct (first :: rest)) (n : Nat) (kws : List Nat) :
    Accepts (first :: rest) (n + 1) kws ↔ Accepts rest n kws ∧ (first.kind = .posKw → first.name ∉ kws) := by
  have hp := positional_cons hk hv
  have hmem : ∀ (kind : Kind), kind ≠ .posOnly → kind ≠ .posKw → ∀ p, p ∈ first :: rest ∧ p.kind = kind ↔ p ∈ rest ∧ p.kind = kind := by
    intro kind h1 h2 p
    constructor
    · rintro ⟨hm, he⟩
      rcases List.mem_cons.1 hm with rfl | hm
      · rcases hk with hk | hk
        · exact absurd (he.symm.trans hk) h1
        · exact absurd (he.symm.trans hk) h2
      · exact ⟨hm, he⟩
    · rintro ⟨hm, he⟩; exact ⟨List.mem_cons_of_mem _ hm, he⟩
  have hinpos : ∀ p ∈ positional rest, p ∈ rest := by
    intro p hp
    rcases List.mem_append.1 hp with h | h
    · exact (mem_posOnly.1 h).1
    · exact (List.mem_filter.1 h).1
  have hne : ∀ p ∈ rest, p.name ≠ first.name := by
    intro p hp he
    unfold Distinct at hd
    rw [List.map_cons, List.nodup_cons] at hd
    exact hd.1 (List.mem_map.2 ⟨p, hp, he⟩)
  constructor
  · intro a
    refine ⟨⟨?_, ?_, ?_, ?_, ?_⟩, ?_⟩
    · rcases a.few with h | ⟨p, h, he⟩
      · left; rw [hp] at h; simpa using h
      · right; obtain ⟨h, he⟩ := (hmem .varPos (by simp) (by simp) p).1 ⟨h, he⟩; exact ⟨p, h, he⟩
    · intro p h; exact a.posOnly p (by rw [hp]; exact h)
    · intro p h; exact a.posKw p (by rw [hp]; exact h)
    · intro p h; exact a.kwOnly p (List.mem_cons_of_mem _ h)
    · intro k hkm
      rcases a.keywords k hkm with ⟨p, h, he, hn⟩ | ⟨p, h, he, hn⟩ | ⟨⟨p, h, he⟩, hn⟩
      · obtain ⟨h, he⟩ := (hmem .kwOnly (by simp) (by simp) p).1 ⟨h, he⟩
        exact .inl ⟨p, h, he, hn⟩
      · rw [hp] at h; exact .inr (.inl ⟨p, h, he, hn⟩)
      · obtain ⟨h, he⟩ := (hmem .varKw (by simp) (by simp) p).1 ⟨h, he⟩
        refine .inr (.inr ⟨⟨p, h, he⟩, ?_⟩)
        intro q hq
        exact hn q (by rw [hp, List.take_succ_cons]; exact List.mem_cons_of_mem _ hq)
    · intro hf hmem'
      rcases a.keywords _ hmem' with ⟨p, h, he, hn⟩ | ⟨p, h, he, hn⟩ | ⟨_, hn⟩
      · obtain ⟨h, _⟩ := (hmem .kwOnly (by simp) (by simp) p).1 ⟨h, he⟩
        exact hne p h hn
      · rw [hp] at h
        exact hne p (hinpos p (List.mem_of_mem_drop h)) hn
      · exact hn first (by rw [hp, List.take_succ_cons]; simp) hf rfl
  · rintro ⟨a, hf⟩
    refine ⟨?_, ?_, ?_, ?_, ?_⟩
    · rcases a.few with h | ⟨p, h, he⟩
      · left; rw [hp]; simpa using h
      · right; exact ⟨p, List.mem_cons_of_mem _ h, he⟩
    · intro p h; rw [hp] at h; exact a.posOnly p h
    · intro p h; rw [hp] at h; exact a.posKw p h
    · intro p h he
      obtain ⟨h, he⟩ := (hmem .kwOnly (by simp) (by simp) p).1 ⟨h, he⟩
      exact a.kwOnly p h he
    · intro k hkm
      rcases a.keywords k hkm with ⟨p, h, he, hn⟩ | ⟨p, h, he, hn⟩ | ⟨⟨p, h, he⟩, hn⟩
      · exact .inl ⟨p, List.mem_cons_of_mem _ h, he, hn⟩
      · exact .inr (.inl ⟨p, by rw [hp]; exact h, he, hn⟩)
      · refine .inr (.inr ⟨⟨p, List.mem_cons_of_mem _ h, he⟩, ?_⟩)
        intro q hq hqk
        rw [hp, List.take_succ_cons] at hq
        rcases List.mem_cons.1 hq with rfl | hq
        · rintro rfl; exact hf hqk hkm
        · exact hn q hq hqk

/-- A class with only one of `__new__` and `__init__`: the signature of the constructor accepts exactly the calls that the method accepts with the
object as first argument, but for calls that name the first parameter. -/
theorem constructor_one (u : Nat → Nat → Bool) (first : Param) (rest : List Param) (hk : first.kind = .posOnly ∨ first.kind = .posKw)
    (hv : mkSig (first :: rest) ≠ none) (hd : Distinct (first :: rest)) (out : List Param)
    (ho : constructorSig u (some (first :: rest)) none = some out ∨ constructorSig u none (some (first :: rest)) = some out) (n : Nat)
    (kws : List Nat) (hkw : first.name ∉ kws) : Accepts out n kws ↔ Accepts (first :: rest) (n + 1) kws := by
  have : out = rest := by
    have hm : mkSig rest = some out := by rcases ho with h | h <;> exact h
    unfold mkSig at hm
    split at hm
    · exact (Option.some.inj hm).symm
    · simp at hm
  subst this
  rw [strip_exact first out hk hv hd]
  simp [hkw]

/-- The hypotheses of `constructor_one` are met by `__init__(self, x, y=1)`. -/
example : constructorSig (fun _ _ => true) none (some [⟨1, .posKw, false, 0⟩, ⟨2, .posKw, false, 0⟩, ⟨3, .posKw, true, 0⟩]) =
    some [⟨2, .posKw, false, 0⟩, ⟨3, .posKw, true, 0⟩] ∧
    Accepts [⟨1, .posKw, false, 0⟩, ⟨2, .posKw, false, 0⟩, ⟨3, .posKw, true, 0⟩] 2 [3] := by decide

/-- Full statement: every call that the signature of the constructor accepts is accepted by `__new__` and `__init__`, with the class or the object as
first argument.
Proved: if one of them is like `__new__(cls, *args, **kwargs)`, and the other one has an object and parameters that may be given by keyword. -/
theorem constructor_both_partial (u : Nat → Nat → Bool) (a b c : Nat) (first : Param) (rest : List Param) (hs : Ordinary (first :: rest))
    (hf : first.kind = .posKw) (ha : ∀ p ∈ first :: rest, p.name ≠ a) (out : List Param)
    (ho : constructorSig u (some (catchAll a b c)) (some (first :: rest)) = some out ∨
      constructorSig u (some (first :: rest)) (some (catchAll a b c)) = some out) (n : Nat) (kws : List Nat) (h : Accepts out n kws) :
    Accepts (catchAll a b c) (n + 1) kws ∧ Accepts (first :: rest) (n + 1) kws := by
  have hi := intersect_catchAll u a b c (first :: rest) hs ha
  have hout : out = rest.map fun p => { p with kind := .kwOnly } := by
    have : mkSig (rest.map fun p => ({ p with kind := .kwOnly } : Param)) = some out := by
      rcases ho with ho | ho
      · rw [constructorSig, hi.1] at ho; exact ho
      · rw [constructorSig, hi.2] at ho; exact ho
    unfold mkSig at this
    split at this
    · exact (Option.some.inj this).symm
    · simp at this
  subst hout
  have hkind : ∀ p ∈ rest.map fun p => ({ p with kind := .kwOnly } : Param), p.kind = .kwOnly := by
    intro p hp
    obtain ⟨q, _, rfl⟩ := List.mem_map.1 hp
    rfl
  have hpos : positional (rest.map fun p => ({ p with kind := .kwOnly } : Param)) = [] := by
    rw [positional, posOnly]
    simp only [List.append_eq_nil_iff, List.filter_eq_nil_iff]
    exact ⟨fun p hp => by simp [hkind p hp], fun p hp => by simp [hkind p hp]⟩
  have hn : n = 0 := by
    rcases h.few with h | ⟨p, hp, hk⟩
    · rw [hpos] at h; simpa using h
    · rw [hkind p hp] at hk; simp at hk
  subst hn
  have hkeys : ∀ k ∈ kws, ∃ p ∈ rest, p.name = k := by
    intro k hk
    rcases h.keywords k hk with ⟨p, hp, _, hn⟩ | ⟨p, hp, _⟩ | ⟨⟨p, hp, hk⟩, _⟩
    · obtain ⟨q, hq, rfl⟩ := List.mem_map.1 hp
      exact ⟨q, hq, hn⟩
    · rw [hpos] at hp; simp at hp
    · rw [hkind p hp] at hk; simp at hk
  constructor
  · refine ⟨.inl (by simp [positional, posOnly, catchAll]), ?_, ?_, ?_, ?_⟩
    · simp [positional, posOnly, catchAll]
    · simp [positional, posOnly, catchAll]
    · simp [catchAll]
    · intro k hk
      refine .inr (.inr ⟨⟨⟨c, .varKw, false, 0⟩, by simp [catchAll], rfl⟩, ?_⟩)
      intro p hp _
      simp only [positional, posOnly, catchAll] at hp
      simp at hp
      subst hp
      obtain ⟨q, hq, rfl⟩ := hkeys k hk
      exact (ha q (List.mem_cons_of_mem _ hq)).symm
  · refine ordinary_accepts hs hf kws hkeys ?_
    intro p hp
    exact h.kwOnly { p with kind := .kwOnly } (List.mem_map.2 ⟨p, hp, rfl⟩) rfl

/-- The hypotheses of `constructor_both_partial` are met by `__new__(cls, *args, **kwargs)` and `__init__(self, x, y=1)`. -/
example : constructorSig (fun _ _ => true) (some (catchAll 1 8 9)) (some [⟨2, .posKw, false, 0⟩, ⟨3, .posKw, false, 0⟩, ⟨4, .posKw, true, 0⟩]) =
    some [⟨3, .kwOnly, false, 0⟩, ⟨4, .kwOnly, true, 0⟩] ∧ Accepts [⟨3, .kwOnly, false, 0⟩, ⟨4, .kwOnly, true, 0⟩] 0 [3] := by decide

/-- Disagreement: for `__new__(cls, x)` and `__init__(self, x)` the signature of the constructor has no parameters: the objects are left out already
because they are not called the same, and then the first parameter is left out. So no object can be made. -/
theorem constructor_drops : constructorSig (fun _ _ => true) (some [⟨1, .posKw, false, 0⟩, ⟨3, .posKw, false, 0⟩])
      (some [⟨2, .posKw, false, 0⟩, ⟨3, .posKw, false, 0⟩]) = some [] ∧
    Accepts [] 0 [] ∧ ¬ Accepts [⟨2, .posKw, false, 0⟩, ⟨3, .posKw, false, 0⟩] 1 [] ∧
    Accepts [⟨1, .posKw, false, 0⟩, ⟨3, .posKw, false, 0⟩] 1 [3] ∧ Accepts [⟨2, .posKw, false, 0⟩, ⟨3, .posKw, false, 0⟩] 1 [3] := by decide

/-- Disagreement: for `__new__(cls, *args, **kwargs)` and `__init__(self, *args, **kwargs)` there is no signature: `ValueError`. -/
theorem constructor_fails : constructorSig (fun _ _ => true) (some (catchAll 1 8 9)) (some (catchAll 2 8 9)) = none := by decide

/-- Disagreement: for `__new__(cls, **kwargs)` and `__init__(self, x, **kwargs)` the object is a parameter still. A call with it is accepted by the
signature of the constructor, and not by `__init__`. -/
theorem constructor_self : ∃ out, constructorSig (fun _ _ => true) (some [⟨1, .posKw, false, 0⟩, ⟨9, .varKw, false, 0⟩])
      (some [⟨2, .posKw, false, 0⟩, ⟨3, .posKw, false, 0⟩, ⟨9, .varKw, false, 0⟩]) = some out ∧ ¬ Accepts out 0 [3] ∧ Accepts out 0 [2, 3] ∧
    ¬ Accepts [⟨2, .posKw, false, 0⟩, ⟨3, .posKw, false, 0⟩, ⟨9, .varKw, false, 0⟩] 1 [2, 3] := ⟨_, rfl, by decide, by decide, by decide⟩

end Verif.Sigs
