import Verif.Unify.Spec

namespace Verif.Unify

variable {H : Hier}

theorem allAll_iff (p : Ty → Bool) (ts : List Ty) : allAll p ts = true ↔ ∀ t ∈ ts, t.all p = true := by
  induction ts with
  | nil => simp [allAll]
  | cons t ts ih => simp [allAll, ih]

theorem sideAll_iff (p : Ty → Bool) (pos : Bool) (ts : List Ty) :
    sideAll p pos ts = true ↔ ∀ t ∈ ts, t.side p pos = true := by
  induction ts with
  | nil => simp [sideAll]
  | cons t ts ih => simp [sideAll, ih]

theorem all_self {p : Ty → Bool} {t : Ty} (h : t.all p = true) : p t = true := by
  cases t with
  | callable a r => cases a <;> simp_all [Ty.all]
  | _ => simp_all [Ty.all]

theorem side_self {p : Ty → Bool} {t : Ty} (h : t.side p true = true) : p t = true := by
  cases t with
  | callable a r => cases a <;> simp_all [Ty.side]
  | _ => simp_all [Ty.side]

mutual
theorem side_of_all {p : Ty → Bool} (pos : Bool) : ∀ (t : Ty), t.all p = true → t.side p pos = true
  | .any, h => by simp_all [Ty.side, Ty.all]
  | .var x, h => by simp_all [Ty.side, Ty.all]
  | .tupleRaw, h => by simp_all [Ty.side, Ty.all]
  | .cls c args, h => by
    simp only [Ty.all, Bool.and_eq_true] at h
    simp [Ty.side, h.1, sideAll_of_all pos args h.2]
  | .tuple ts, h => by
    simp only [Ty.all, Bool.and_eq_true] at h
    simp [Ty.side, h.1, sideAll_of_all pos ts h.2]
  | .union ts, h => by
    simp only [Ty.all, Bool.and_eq_true] at h
    simp [Ty.side, h.1, sideAll_of_all pos ts h.2]
  | .tupleVar t, h => by
    simp only [Ty.all, Bool.and_eq_true] at h
    simp [Ty.side, h.1, side_of_all pos t h.2]
  | .callable none r, h => by
    simp only [Ty.all, Bool.and_eq_true] at h
    simp [Ty.side, h.1, side_of_all pos r h.2]
  | .callable (some args) r, h => by
    simp only [Ty.all, Bool.and_eq_true] at h
    simp [Ty.side, h.1, side_of_all pos r h.2.2, sideAll_of_all (!pos) args h.2.1]
theorem sideAll_of_all {p : Ty → Bool} (pos : Bool) : ∀ (ts : List Ty), allAll p ts = true → sideAll p pos ts = true
  | [], _ => rfl
  | t :: ts, h => by
    simp only [allAll, Bool.and_eq_true] at h
    simp [sideAll, side_of_all pos t h.1, sideAll_of_all pos ts h.2]
end

mutual
theorem same_eq : ∀ (x y : Ty), x.same y = true → x = y
  | .any, y, h => by cases y <;> simp_all [Ty.same]
  | .tupleRaw, y, h => by cases y <;> simp_all [Ty.same]
  | .var x, y, h => by cases y <;> simp_all [Ty.same]
  | .cls c xs, y, h => by
    cases y with
    | cls d ys =>
      simp only [Ty.same, Bool.and_eq_true, beq_iff_eq] at h
      rw [h.1, sameAll_eq xs ys h.2]
    | _ => simp [Ty.same] at h
  | .tuple xs, y, h => by
    cases y with
    | tuple ys => rw [sameAll_eq xs ys (by simpa [Ty.same] using h)]
    | _ => simp [Ty.same] at h
  | .union xs, y, h => by
    cases y with
    | union ys => rw [sameAll_eq xs ys (by simpa [Ty.same] using h)]
    | _ => simp [Ty.same] at h
  | .tupleVar x, y, h => by
    cases y with
    | tupleVar y => rw [same_eq x y (by simpa [Ty.same] using h)]
    | _ => simp [Ty.same] at h
  | .callable (some xs) r, y, h => by
    cases y with
    | callable a r' =>
      cases a with
      | none => simp [Ty.same] at h
      | some ys =>
        simp only [Ty.same, Bool.and_eq_true] at h
        rw [sameAll_eq xs ys h.1, same_eq r r' h.2]
    | _ => simp [Ty.same] at h
  | .callable none r, y, h => by
    cases y with
    | callable a r' =>
      cases a with
      | some ys => simp [Ty.same] at h
      | none => rw [same_eq r r' (by simpa [Ty.same] using h)]
    | _ => simp [Ty.same] at h
theorem sameAll_eq : ∀ (xs ys : List Ty), sameAll xs ys = true → xs = ys
  | [], ys, h => by cases ys <;> simp_all [sameAll]
  | x :: xs, ys, h => by
    cases ys with
    | nil => simp [sameAll] at h
    | cons y ys =>
      simp only [sameAll, Bool.and_eq_true] at h
      rw [same_eq x y h.1, sameAll_eq xs ys h.2]
end

/-! ## What is assumed of two types -/

structure Pre (H : Hier) (v r : Ty) : Prop where
  properV : v.all (Ty.proper H) = true
  properR : r.all (Ty.proper H) = true
  unions : (v.all Ty.notVar = true ∧ r.all Ty.notVar = true) ∨
    (v.all Ty.notVar = true ∧ v.all Ty.notUnion = true ∧ r.side Ty.notUnion false = true) ∨
    (r.all Ty.notVar = true ∧ r.all Ty.notUnion = true ∧ v.side Ty.notUnion true = true)
  tuples : (v.all Ty.notLong = true ∧ r.all Ty.notLong = true) ∨
    (v.all Ty.notVar = true ∧ r.all Ty.notVar = true ∧ v.side Ty.notTuple false = true ∧ r.side Ty.notTuple true = true)

/-- Type `t` is part of `t'`, on the same side. -/
def Part (t t' : Ty) : Prop :=
  (∀ p, t'.all p = true → t.all p = true) ∧ ∀ p pos, t'.side p pos = true → t.side p pos = true

/-- Type `t` is part of `t'`, on the other side. -/
def Anti (t t' : Ty) : Prop :=
  (∀ p, t'.all p = true → t.all p = true) ∧ ∀ p pos, t'.side p pos = true → t.side p (!pos) = true

theorem Part.refl (t : Ty) : Part t t := ⟨fun _ h => h, fun _ _ h => h⟩

theorem part_cls {c : Nat} {args : List Ty} {t : Ty} (h : t ∈ args) : Part t (.cls c args) := by
  constructor
  · intro p hp; simp only [Ty.all, Bool.and_eq_true] at hp; exact (allAll_iff p args).1 hp.2 t h
  · intro p pos hp; simp only [Ty.side, Bool.and_eq_true] at hp; exact (sideAll_iff p pos args).1 hp.2 t h

theorem part_tuple {args : List Ty} {t : Ty} (h : t ∈ args) : Part t (.tuple args) := by
  constructor
  · intro p hp; simp only [Ty.all, Bool.and_eq_true] at hp; exact (allAll_iff p args).1 hp.2 t h
  · intro p pos hp; simp only [Ty.side, Bool.and_eq_true] at hp; exact (sideAll_iff p pos args).1 hp.2 t h

theorem part_union {args : List Ty} {t : Ty} (h : t ∈ args) : Part t (.union args) := by
  constructor
  · intro p hp; simp only [Ty.all, Bool.and_eq_true] at hp; exact (allAll_iff p args).1 hp.2 t h
  · intro p pos hp; simp only [Ty.side, Bool.and_eq_true] at hp; exact (sideAll_iff p pos args).1 hp.2 t h

theorem part_tupleVar (t : Ty) : Part t (.tupleVar t) := by
  constructor
  · intro p hp; simp only [Ty.all, Bool.and_eq_true] at hp; exact hp.2
  · intro p pos hp; simp only [Ty.side, Bool.and_eq_true] at hp; exact hp.2

theorem part_ret (a : Option (List Ty)) (r : Ty) : Part r (.callable a r) := by
  constructor
  · intro p hp
    cases a <;> simp only [Ty.all, Bool.and_eq_true] at hp
    · exact hp.2
    · exact hp.2.2
  · intro p pos hp
    cases a <;> simp only [Ty.side, Bool.and_eq_true] at hp
    · exact hp.2
    · exact hp.2.2

theorem anti_arg {args : List Ty} {t r : Ty} (h : t ∈ args) : Anti t (.callable (some args) r) := by
  constructor
  · intro p hp; simp only [Ty.all, Bool.and_eq_true] at hp; exact (allAll_iff p args).1 hp.2.1 t h
  · intro p pos hp; simp only [Ty.side, Bool.and_eq_true] at hp; exact (sideAll_iff p (!pos) args).1 hp.2.1 t h

theorem Pre.part {v r v' r' : Ty} (h : Pre H v r) (hv : Part v' v) (hr : Part r' r) : Pre H v' r' := by
  refine ⟨hv.1 _ h.properV, hr.1 _ h.properR, ?_, ?_⟩
  · rcases h.unions with ⟨h1, h2⟩ | ⟨h1, h2, h3⟩ | ⟨h1, h2, h3⟩
    · exact .inl ⟨hv.1 _ h1, hr.1 _ h2⟩
    · exact .inr (.inl ⟨hv.1 _ h1, hv.1 _ h2, hr.2 _ _ h3⟩)
    · exact .inr (.inr ⟨hr.1 _ h1, hr.1 _ h2, hv.2 _ _ h3⟩)
  · rcases h.tuples with ⟨h1, h2⟩ | ⟨h1, h2, h3, h4⟩
    · exact .inl ⟨hv.1 _ h1, hr.1 _ h2⟩
    · exact .inr ⟨hv.1 _ h1, hr.1 _ h2, hv.2 _ _ h3, hr.2 _ _ h4⟩

theorem Pre.flip {v r v' r' : Ty} (h : Pre H v r) (hv : Anti v' v) (hr : Anti r' r) : Pre H r' v' := by
  refine ⟨hr.1 _ h.properR, hv.1 _ h.properV, ?_, ?_⟩
  · rcases h.unions with ⟨h1, h2⟩ | ⟨h1, h2, h3⟩ | ⟨h1, h2, h3⟩
    · exact .inl ⟨hr.1 _ h2, hv.1 _ h1⟩
    · exact .inr (.inr ⟨hv.1 _ h1, hv.1 _ h2, hr.2 _ _ h3⟩)
    · exact .inr (.inl ⟨hr.1 _ h1, hr.1 _ h2, hv.2 _ _ h3⟩)
  · rcases h.tuples with ⟨h1, h2⟩ | ⟨h1, h2, h3, h4⟩
    · exact .inl ⟨hr.1 _ h2, hv.1 _ h1⟩
    · exact .inr ⟨hr.1 _ h2, hv.1 _ h1, hr.2 _ _ h4, hv.2 _ _ h3⟩

theorem proper_object (hH : H.Ok) : (Ty.cls H.objectC []).all (Ty.proper H) = true := by
  simp [Ty.all, allAll, Ty.proper, hH.objectTuple, hH.objectCallable]

theorem Pre.object {v r : Ty} (hH : H.Ok) (h : Pre H v r) : Pre H (.cls H.objectC []) r := by
  refine ⟨proper_object hH, h.properR, ?_, ?_⟩
  · rcases h.unions with ⟨h1, h2⟩ | ⟨h1, h2, h3⟩ | ⟨h1, h2, h3⟩
    · exact .inl ⟨rfl, h2⟩
    · exact .inr (.inl ⟨rfl, rfl, h3⟩)
    · exact .inl ⟨rfl, h1⟩
  · rcases h.tuples with ⟨h1, h2⟩ | ⟨h1, h2, h3, h4⟩
    · exact .inl ⟨rfl, h2⟩
    · exact .inr ⟨rfl, h2, rfl, h4⟩

theorem Pre.sequence {v r t : Ty} (hH : H.Ok) (h : Pre H v r) (ht : Part t v) : Pre H (.cls H.sequenceC [t]) r := by
  have hp := h.part ht (Part.refl r)
  refine ⟨?_, h.properR, ?_, ?_⟩
  · simp [Ty.all, allAll, Ty.proper, hH.sequenceTuple, hH.sequenceCallable, hH.sequenceParams, hp.properV]
  · simpa [Ty.all, allAll, Ty.side, sideAll, Ty.notVar, Ty.notUnion] using hp.unions
  · simpa [Ty.all, allAll, Ty.side, sideAll, Ty.notVar, Ty.notLong, Ty.notTuple] using hp.tuples

theorem Pre.raw {t r : Ty} (h : Pre H (.tupleVar t) r) : Pre H .tupleRaw r := by
  refine ⟨rfl, h.properR, ?_, ?_⟩
  · rcases h.unions with ⟨h1, h2⟩ | ⟨h1, h2, h3⟩ | ⟨h1, h2, h3⟩
    · exact .inl ⟨rfl, h2⟩
    · exact .inr (.inl ⟨rfl, rfl, h3⟩)
    · exact .inl ⟨rfl, h1⟩
  · rcases h.tuples with ⟨h1, h2⟩ | ⟨h1, h2, h3, h4⟩
    · simp [Ty.all, Ty.notLong] at h1
    · exact .inr ⟨rfl, h2, rfl, h4⟩

/-! ## Bindings -/

/-- Bound types have no variables, unions or tuples of any length. -/
def Bound (H : Hier) (b : Bindings) : Prop := ∀ x t, b.lookup x = some t →
  t.all Ty.notVar = true ∧ t.all Ty.notUnion = true ∧ t.all Ty.notLong = true ∧ t.all (Ty.proper H) = true

def Ext (b b' : Bindings) : Prop := ∀ x t, b.lookup x = some t → b'.lookup x = some t

/-- The type variables stand for what they are bound to. -/
def Agrees (H : Hier) (ρ : Env) (b : Bindings) : Prop :=
  ∀ x t, b.lookup x = some t → ∀ favour v, ρ x favour v ↔ mem H ρ favour t v

theorem Ext.refl (b : Bindings) : Ext b b := fun _ _ h => h

theorem Ext.trans {b b' b'' : Bindings} (h : Ext b b') (h' : Ext b' b'') : Ext b b'' := fun x t hx => h' x t (h x t hx)

theorem Agrees.mono {ρ : Env} {b b' : Bindings} (h : Agrees H ρ b') (he : Ext b b') : Agrees H ρ b :=
  fun x t hx => h x t (he x t hx)

theorem get_closed {b : Bindings} {t : Ty} (h : t.all Ty.notVar = true) : get b t = t := by
  cases t <;> simp_all [get, Ty.all, Ty.notVar]

theorem get_cases (b : Bindings) (t : Ty) : get b t = t ∨ ∃ x t', t = .var x ∧ b.lookup x = some t' ∧ get b t = t' := by
  cases t with
  | var x =>
    cases h : b.lookup x with
    | none => left; simp [get, h]
    | some t' => right; exact ⟨x, t', rfl, h, by simp [get, h]⟩
  | _ => left; rfl

theorem Pre.get {v r : Ty} {b : Bindings} (h : Pre H v r) (hb : Bound H b) : Pre H (get b v) (get b r) := by
  have hl : Pre H (Unify.get b v) r := by
    rcases get_cases b v with e | ⟨x, t, rfl, hx, e⟩
    · rw [e]; exact h
    · rw [e]
      obtain ⟨h1, h2, h3, h4⟩ := hb x t hx
      refine ⟨h4, h.properR, ?_, ?_⟩
      · rcases h.unions with ⟨g1, g2⟩ | ⟨g1, _⟩ | ⟨g1, g2, g3⟩
        · simp [Ty.all, Ty.notVar] at g1
        · simp [Ty.all, Ty.notVar] at g1
        · exact .inl ⟨h1, g1⟩
      · rcases h.tuples with ⟨g1, g2⟩ | ⟨g1, _⟩
        · exact .inl ⟨h3, g2⟩
        · simp [Ty.all, Ty.notVar] at g1
  rcases get_cases b r with e | ⟨x, t, rfl, hx, e⟩
  · rw [e]; exact hl
  · rw [e]
    obtain ⟨h1, h2, h3, h4⟩ := hb x t hx
    refine ⟨hl.properV, h4, ?_, ?_⟩
    · rcases hl.unions with ⟨g1, g2⟩ | ⟨g1, g2, g3⟩ | ⟨g1, _⟩
      · simp [Ty.all, Ty.notVar] at g2
      · exact .inl ⟨g1, h1⟩
      · simp [Ty.all, Ty.notVar] at g1
    · rcases hl.tuples with ⟨g1, g2⟩ | ⟨_, g1, _⟩
      · exact .inl ⟨g1, h3⟩
      · simp [Ty.all, Ty.notVar] at g1

theorem mem_get {ρ : Env} {b : Bindings} (h : Agrees H ρ b) (favour : Bool) (t : Ty) (v : Val) :
    mem H ρ favour (get b t) v ↔ mem H ρ favour t v := by
  rcases get_cases b t with e | ⟨x, t', rfl, hx, e⟩
  · rw [e]
  · rw [e, ← h x t' hx favour v, mem]

/-! ## Values of types -/

theorem mem_object (hH : H.Ok) (ρ : Env) (favour : Bool) (v : Val) : mem H ρ favour (.cls H.objectC []) v := by
  rw [mem]
  exact ⟨hH.top _, by cases v.parts <;> simp [memParts]⟩

theorem mem_union {ρ : Env} {favour : Bool} {ts : List Ty} {v : Val} :
    memUnion H ρ favour ts v ↔ ∃ t ∈ ts, mem H ρ favour t v := by
  induction ts with
  | nil => simp [memUnion]
  | cons t ts ih => simp [memUnion, ih]

theorem items_length {ρ : Env} {favour : Bool} {ts : List Ty} : ∀ {xs : List Val}, memItems H ρ favour ts xs → ts.length = xs.length := by
  induction ts with
  | nil => intro xs h; cases xs <;> simp_all [memItems]
  | cons t ts ih =>
    intro xs h
    cases xs with
    | nil => simp [memItems] at h
    | cons x xs => simp only [memItems] at h; simp [ih h.2]

theorem mem_uniform {ρ : Env} {favour : Bool} {t : Ty} {ts : List Ty} : ∀ {xs : List Val}, (∀ y ∈ ts, t = y) →
    memItems H ρ favour ts xs → ∀ x ∈ xs, mem H ρ favour t x := by
  induction ts with
  | nil => intro xs _ h; cases xs <;> simp_all [memItems]
  | cons y ts ih =>
    intro xs hs h
    cases xs with
    | nil => simp
    | cons x xs =>
      simp only [memItems] at h
      intro z hz
      rcases List.mem_cons.1 hz with rfl | hz
      · rw [hs y (by simp)]; exact h.1
      · exact ih (fun y hy => hs y (by simp [hy])) h.2 z hz

theorem mem_sequence (hH : H.Ok) {ρ : Env} {favour : Bool} {t : Ty} {items : List Val}
    (h : ∀ x ∈ items, mem H ρ favour t x) : mem H ρ favour (.cls H.sequenceC [t]) (.tup items) := by
  rw [mem]
  refine ⟨hH.tupleSequence, ?_⟩
  simp only [Val.parts, memParts, and_true]
  exact h

theorem uniform_cases {ts : List Ty} {t : Ty} (h : uniform H ts = some t) :
    (ts = [] ∧ t = .cls H.objectC []) ∨ (t ∈ ts ∧ ∀ y ∈ ts, t = y) := by
  cases ts with
  | nil => simp [uniform] at h; exact .inl ⟨rfl, h.symm⟩
  | cons x xs =>
    simp only [uniform] at h
    split at h
    · rename_i ha
      cases h
      refine .inr ⟨by simp, ?_⟩
      intro y hy
      rcases List.mem_cons.1 hy with rfl | hy
      · rfl
      · exact same_eq _ y (List.all_eq_true.1 ha y hy)
    · cases h

theorem Accepts.trans_left {ρ : Env} {v v' r : Ty} (h : ∀ x, mem H ρ false v x → mem H ρ false v' x) (h' : Accepts H ρ v' r) :
    Accepts H ρ v r := fun x hx => h' x (h x hx)

theorem parts_accept {ρ : Env} {vs rs : List Ty} (hlen : vs.length = rs.length)
    (h : ∀ (i : Nat) (v r : Ty), vs[i]? = some v → rs[i]? = some r → Accepts H ρ v r) :
    ∀ {ps : List (List Val)}, memParts H ρ false vs ps → memParts H ρ true rs ps := by
  induction vs generalizing rs with
  | nil => intro ps _; cases rs <;> simp_all [memParts]
  | cons v vs ih =>
    intro ps hp
    cases rs with
    | nil => simp at hlen
    | cons r rs =>
      cases ps with
      | nil => simp [memParts]
      | cons p ps =>
        simp only [memParts] at hp ⊢
        refine ⟨fun x hx => h 0 v r rfl rfl x (hp.1 x hx), ih (by simpa using hlen) ?_ hp.2⟩
        intro i v' r' hv hr
        exact h (i + 1) v' r' (by simpa using hv) (by simpa using hr)

theorem items_accept {ρ : Env} {vs rs : List Ty} (hlen : vs.length = rs.length)
    (h : ∀ (i : Nat) (v r : Ty), vs[i]? = some v → rs[i]? = some r → Accepts H ρ v r) :
    ∀ {xs : List Val}, memItems H ρ false vs xs → memItems H ρ true rs xs := by
  induction vs generalizing rs with
  | nil => intro xs hx; cases rs <;> cases xs <;> simp_all [memItems]
  | cons v vs ih =>
    intro xs hx
    cases rs with
    | nil => simp at hlen
    | cons r rs =>
      cases xs with
      | nil => simp [memItems] at hx
      | cons x xs =>
        simp only [memItems] at hx ⊢
        refine ⟨h 0 v r rfl rfl x hx.1, ih (by simpa using hlen) ?_ hx.2⟩
        intro i v' r' hv hr
        exact h (i + 1) v' r' (by simpa using hv) (by simpa using hr)

mutual
/-- With `Any` in the favourable reading a type has at least as many values. -/
theorem mem_mono {ρ : Env} : ∀ (t : Ty), t.all Ty.notVar = true → ∀ v, mem H ρ false t v → mem H ρ true t v
  | .any, _, v, h => by simp [mem]
  | .var x, hc, v, h => by simp [Ty.all, Ty.notVar] at hc
  | .tupleRaw, _, v, h => by cases v <;> simp_all [mem]
  | .cls c args, hc, v, h => by
    simp only [Ty.all, Bool.and_eq_true] at hc
    rw [mem] at h ⊢
    exact ⟨h.1, parts_mono args hc.2 _ h.2⟩
  | .tuple ts, hc, v, h => by
    simp only [Ty.all, Bool.and_eq_true] at hc
    cases v with
    | tup items => rw [mem] at h ⊢; exact items_mono ts hc.2 _ h
    | _ => simp [mem] at h
  | .tupleVar t, hc, v, h => by
    simp only [Ty.all, Bool.and_eq_true] at hc
    cases v with
    | tup items => rw [mem] at h ⊢; exact fun x hx => mem_mono t hc.2 x (h x hx)
    | _ => simp [mem] at h
  | .union ts, hc, v, h => by
    simp only [Ty.all, Bool.and_eq_true] at hc
    rw [mem] at h ⊢
    exact union_mono ts hc.2 v h
  | .callable none r, hc, v, h => by
    cases v <;> simp_all [mem]
  | .callable (some args) r, hc, v, h => by
    simp only [Ty.all, Bool.and_eq_true] at hc
    cases v with
    | obj c ps => simpa [mem] using h
    | tup items => simp [mem] at h
    | fn accepts calls =>
      rw [mem] at h ⊢
      refine ⟨h.1, fun call hcall hi => mem_mono r hc.2.2 _ (h.2 call hcall ?_)⟩
      exact items_mono args hc.2.1 _ hi
theorem parts_mono {ρ : Env} : ∀ (ts : List Ty), allAll Ty.notVar ts = true → ∀ ps, memParts H ρ false ts ps → memParts H ρ true ts ps
  | [], _, ps, _ => by cases ps <;> simp [memParts]
  | t :: ts, hc, ps, h => by
    simp only [allAll, Bool.and_eq_true] at hc
    cases ps with
    | nil => simp [memParts]
    | cons p ps => rw [memParts] at h ⊢; exact ⟨fun x hx => mem_mono t hc.1 x (h.1 x hx), parts_mono ts hc.2 ps h.2⟩
theorem items_mono {ρ : Env} : ∀ (ts : List Ty), allAll Ty.notVar ts = true → ∀ xs, memItems H ρ false ts xs → memItems H ρ true ts xs
  | [], _, xs, h => by cases xs <;> simp_all [memItems]
  | t :: ts, hc, xs, h => by
    simp only [allAll, Bool.and_eq_true] at hc
    cases xs with
    | nil => simp [memItems] at h
    | cons x xs => rw [memItems] at h ⊢; exact ⟨mem_mono t hc.1 x h.1, items_mono ts hc.2 xs h.2⟩
theorem union_mono {ρ : Env} : ∀ (ts : List Ty), allAll Ty.notVar ts = true → ∀ v, memUnion H ρ false ts v → memUnion H ρ true ts v
  | [], _, v, h => by simp [memUnion] at h
  | t :: ts, hc, v, h => by
    simp only [allAll, Bool.and_eq_true] at hc
    rw [memUnion] at h ⊢
    exact h.imp (mem_mono t hc.1 v) (union_mono ts hc.2 v)
end

end Verif.Unify
