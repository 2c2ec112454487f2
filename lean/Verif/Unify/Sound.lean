import Verif.Unify.Lemmas

namespace Verif.Unify

variable {H : Hier}

def Post (H : Hier) (v r : Ty) (b : Bindings) : Res → Prop
  | .ok true b' => Bound H b' ∧ Ext b b' ∧ (v.all Ty.notVar = true → r.all Ty.notVar = true → b' = b) ∧
      ∀ ρ, Agrees H ρ b' → Accepts H ρ v r
  | _ => True

def PostAll (H : Hier) (vs rs : List Ty) (b : Bindings) : Res → Prop
  | .ok true b' => Bound H b' ∧ Ext b b' ∧ ((∀ v ∈ vs, v.all Ty.notVar = true) → (∀ r ∈ rs, r.all Ty.notVar = true) → b' = b) ∧
      ∀ ρ, Agrees H ρ b' → ∀ (i : Nat) (v r : Ty), vs[i]? = some v → rs[i]? = some r → Accepts H ρ v r
  | _ => True

/-- As a value type, `v'` has at least the values of `v`. -/
theorem Post.weaken {v v' r : Ty} {b : Bindings} {res : Res} (h : Post H v' r b res)
    (hc : v.all Ty.notVar = true → v'.all Ty.notVar = true)
    (hm : ∀ ρ x, mem H ρ false v x → mem H ρ false v' x) : Post H v r b res := by
  cases res with
  | ok ans b' =>
    cases ans with
    | true => exact ⟨h.1, h.2.1, fun h1 h2 => h.2.2.1 (hc h1) h2, fun ρ ha => Accepts.trans_left (hm ρ) (h.2.2.2 ρ ha)⟩
    | false => trivial
  | _ => trivial

/-- Types that are not `Any`, a variable or a union. -/
def Ty.plain : Ty → Bool
  | .any => false
  | .var _ => false
  | .union _ => false
  | _ => true

theorem closed_parts {c : Nat} {args : List Ty} (h : (Ty.cls c args).all Ty.notVar = true) : ∀ t ∈ args, t.all Ty.notVar = true :=
  fun t ht => (part_cls (c := c) ht).1 _ h

theorem closed_items {args : List Ty} (h : (Ty.tuple args).all Ty.notVar = true) : ∀ t ∈ args, t.all Ty.notVar = true :=
  fun t ht => (part_tuple ht).1 _ h

theorem origin_cls {r : Ty} (hp : r.plain = true) (hr : r.all (Ty.proper H) = true) (hn : H.sub (origin H r) H.callableC = true)
    (hH : H.Ok) : (∃ a t, r = .callable a t) ∨ ∃ c, r = .cls c [] ∧ H.sub c H.callableC = true ∧ H.sub H.functionC c = false := by
  cases r with
  | any => simp [Ty.plain] at hp
  | var x => simp [Ty.plain] at hp
  | union ts => simp [Ty.plain] at hp
  | tuple ts => simp [origin, hH.tupleCallable] at hn
  | tupleVar ts => simp [origin, hH.tupleCallable] at hn
  | tupleRaw => simp [origin, hH.tupleCallable] at hn
  | callable a t => exact .inl ⟨a, t, rfl⟩
  | cls c args =>
    simp only [origin] at hn
    have := all_self hr
    simp only [Ty.proper, hn] at this
    simp at this
    obtain ⟨⟨_, _⟩, h3, h4⟩ := this
    subst h4
    exact .inr ⟨c, rfl, hn, h3⟩

theorem Pre.any {v r : Ty} (h : Pre H v r) : Pre H .any r := by
  refine ⟨rfl, h.properR, ?_, ?_⟩
  · rcases h.unions with ⟨h1, h2⟩ | ⟨h1, h2, h3⟩ | ⟨h1, h2, h3⟩
    · exact .inl ⟨rfl, h2⟩
    · exact .inr (.inl ⟨rfl, rfl, h3⟩)
    · exact .inl ⟨rfl, h1⟩
  · rcases h.tuples with ⟨h1, h2⟩ | ⟨h1, h2, h3, h4⟩
    · exact .inl ⟨rfl, h2⟩
    · exact .inr ⟨rfl, h2, rfl, h4⟩

theorem memParts_objects (hH : H.Ok) (ρ : Env) (rs : List Ty) : ∀ (ps : List (List Val)),
    memParts H ρ false (rs.map fun _ => .cls H.objectC []) ps := by
  induction rs with
  | nil => intro ps; simp [memParts]
  | cons r rs ih =>
    intro ps
    cases ps with
    | nil => simp [memParts]
    | cons p ps =>
      simp only [List.map_cons, memParts]
      exact ⟨fun x _ => mem_object hH ρ false x, ih ps⟩

theorem sound_callable (hH : H.Ok) {va ra : Option (List Ty)} {vr rr : Ty} {ρ : Env} (hret : Accepts H ρ vr rr)
    (hargs : ∀ vs rs, va = some vs → ra = some rs → vs.length = rs.length ∧
      ∀ (i : Nat) (v r : Ty), rs[i]? = some r → vs[i]? = some v → Accepts H ρ r v) :
    Accepts H ρ (.callable va vr) (.callable ra rr) := by
  intro x hx
  cases x with
  | obj c ps => cases va <;> cases ra <;> simpa [mem] using hx
  | tup items => cases va <;> simp [mem] at hx
  | fn accepts calls =>
    cases ra with
    | none => simp [mem]
    | some rs =>
      rw [mem]
      cases va with
      | none =>
        rw [mem] at hx
        rcases hx with hx | ⟨h1, h2⟩
        · cases hx
        · exact ⟨h1 _, fun call hc _ => hret _ (h2 call hc)⟩
      | some vs =>
        rw [mem] at hx
        obtain ⟨hlen, ha⟩ := hargs vs rs rfl rfl
        refine ⟨by rw [← hlen]; exact hx.1, fun call hc hi => hret _ (hx.2 call hc ?_)⟩
        exact items_accept hlen.symm (fun i v r hv hr => ha i r v hv hr) hi

theorem spec (hH : H.Ok) : ∀ n : Nat,
    (∀ v r b, Pre H v r → Bound H b → Post H v r b (unify H n v r b)) ∧
    (∀ v r b, Pre H v r → Bound H b → v.isAny = false → r.isAny = false → (∀ vs, v ≠ .union vs) →
      Post H v r b (receive H n v r b)) ∧
    (∀ vs r b, (∀ v ∈ vs, Pre H v r) → Bound H b → (∀ v ∈ vs, v.all Ty.notVar = true) → r.all Ty.notVar = true →
      ∀ b', unionValue H n vs r b = .ok true b' → b' = b ∧ ∀ ρ, Agrees H ρ b → ∀ v ∈ vs, Accepts H ρ v r) ∧
    (∀ v rs b, (∀ r ∈ rs, Pre H v r) → Bound H b → Post H v (.union rs) b (unionRecv H n v rs b)) ∧
    (∀ v r b, Pre H v r → Bound H b → v.plain = true → r.plain = true → Post H v r b (tuples H n v r b)) ∧
    (∀ v r b, Pre H v r → Bound H b → v.plain = true → r.plain = true → (∀ t, v ≠ .tupleVar t) → v ≠ .tuple [] →
      Post H v r b (tupleRecv H n v r b)) ∧
    (∀ v r b, Pre H v r → Bound H b → v.plain = true → r.plain = true → (∀ t, v ≠ .tupleVar t) → v ≠ .tuple [] →
      Post H v r b (classes H n (origin H v) v r b)) ∧
    (∀ vs rs b, (∀ v ∈ vs, ∀ r ∈ rs, Pre H v r) → (∀ r ∈ rs, Pre H (.cls H.objectC []) r) → Bound H b →
      ∀ b', arguments H n vs rs b = .ok true b' →
        ((vs = [] ∧ PostAll H (rs.map fun _ => .cls H.objectC []) rs b (.ok true b')) ∨
          (vs.length = rs.length ∧ PostAll H vs rs b (.ok true b')))) ∧
    (∀ vs rs b, (∀ v ∈ vs, ∀ r ∈ rs, Pre H v r) → Bound H b → PostAll H vs rs b (unifyAll H n vs rs b)) := by
  intro n
  induction n with
  | zero =>
    refine ⟨?_, ?_, ?_, ?_, ?_, ?_, ?_, ?_, ?_⟩ <;> intros <;>
      simp_all [unify, receive, unionValue, unionRecv, tuples, tupleRecv, classes, arguments, unifyAll, Post, PostAll]
  | succ n ih =>
    obtain ⟨ihu, ihrc, ihv, ihr, iht, ihtr, ihc, iha, ihl⟩ := ih
    refine ⟨?_, ?_, ?_, ?_, ?_, ?_, ?_, ?_, ?_⟩
    · -- unify
      intro v r b hp hb
      have hp' := hp.get hb
      suffices h : Post H (get b v) (get b r) b (unify H (n + 1) v r b) by
        cases hres : unify H (n + 1) v r b with
        | ok ans b' =>
          cases ans with
          | false => trivial
          | true =>
            rw [hres] at h
            obtain ⟨h1, h2, h3, h4⟩ := h
            refine ⟨h1, h2, fun hv hr => h3 (by rw [get_closed hv]; exact hv) (by rw [get_closed hr]; exact hr), ?_⟩
            intro ρ ha x hx
            have hab := ha.mono h2
            exact (mem_get hab true r x).1 (h4 ρ ha x ((mem_get hab false v x).2 hx))
        | _ => trivial
      rw [unify]
      generalize hgv : get b v = v' at hp'
      generalize hgr : get b r = r' at hp'
      by_cases hany : (v'.isAny || r'.isAny) = true
      · rw [if_pos hany]
        refine ⟨hb, Ext.refl b, fun _ _ => rfl, ?_⟩
        intro ρ _ x hx
        rcases Bool.or_eq_true _ _ ▸ hany with h | h
        · cases v' <;> simp [Ty.isAny] at h
          simp [mem] at hx
        · cases r' <;> simp [Ty.isAny] at h
          simp [mem]
      · rw [if_neg hany]
        simp only [Bool.or_eq_true, not_or, Bool.not_eq_true] at hany
        by_cases hvu : ∃ vs, v' = .union vs
        · obtain ⟨vs, rfl⟩ := hvu
          have hcl : (Ty.union vs).all Ty.notVar = true ∧ r'.all Ty.notVar = true := by
            rcases hp'.unions with h | ⟨_, h, _⟩ | ⟨_, _, h⟩
            · exact h
            · have := all_self h; simp [Ty.notUnion] at this
            · have := side_self h; simp [Ty.notUnion] at this
          have h := ihv vs r' b (fun v hv => hp'.part (part_union hv) (Part.refl _)) hb
            (fun v hv => (part_union hv).1 _ hcl.1) hcl.2
          simp only
          cases hres : unionValue H n vs r' b with
          | ok ans b' =>
            cases ans with
            | false => trivial
            | true =>
              obtain ⟨h1, h2⟩ := h b' hres
              subst h1
              refine ⟨hb, Ext.refl _, fun _ _ => rfl, ?_⟩
              intro ρ ha x hx
              rw [mem, mem_union] at hx
              obtain ⟨t, ht, hx⟩ := hx
              exact h2 ρ ha t ht x hx
          | _ => trivial
        · have hmain := ihrc v' r' b hp' hb hany.1 hany.2 (fun vs e => hvu ⟨vs, e⟩)
          cases v' with
          | union vs => exact absurd ⟨vs, rfl⟩ hvu
          | _ => exact hmain
    · -- receive
      intro v' r' b hp' hb hanyv hanyr hvu
      have hrest : r'.plain = true → Post H v' r' b (tuples H n (v'.orObject H) r' b) := by
        intro hpl
        cases v' with
        | var x =>
          have := iht (.cls H.objectC []) r' b (hp'.object hH) hb rfl hpl
          exact this.weaken (fun _ => rfl) (fun ρ x _ => mem_object hH ρ false x)
        | any => simp [Ty.isAny] at hanyv
        | union vs => exact absurd rfl (hvu vs)
        | _ => exact iht _ r' b hp' hb rfl hpl
      cases r' with
      | union rs => rw [receive]; exact ihr v' rs b (fun r hr => hp'.part (Part.refl _) (part_union hr)) hb
      | var x =>
        rw [receive]
        cases hl : b.lookup x with
        | some t => trivial
        | none =>
          simp only [Option.isSome_none, Bool.false_eq_true, if_false]
          have hv : v'.all Ty.notVar = true ∧ v'.all Ty.notUnion = true := by
            rcases hp'.unions with ⟨_, h⟩ | ⟨h1, h2, _⟩ | ⟨h, _⟩
            · have := all_self h; simp [Ty.notVar] at this
            · exact ⟨h1, h2⟩
            · have := all_self h; simp [Ty.notVar] at this
          have hlong : v'.all Ty.notLong = true := by
            rcases hp'.tuples with ⟨h, _⟩ | ⟨_, h, _⟩
            · exact h
            · have := all_self h; simp [Ty.notVar] at this
          have hlook : ∀ y, ((x, v') :: b).lookup y = if y = x then some v' else b.lookup y := by
            intro y
            rw [List.lookup_cons]
            by_cases h : y = x
            · simp [h]
            · simp [h, beq_eq_false_iff_ne.2 h]
          refine ⟨?_, ?_, ?_, ?_⟩
          · intro y t hy
            rw [hlook] at hy
            split at hy
            · cases hy; exact ⟨hv.1, hv.2, hlong, hp'.properV⟩
            · exact hb y t hy
          · intro y t hy
            rw [hlook]
            split
            · rename_i h; subst h; rw [hl] at hy; cases hy
            · exact hy
          · intro _ h; have := all_self h; simp [Ty.notVar] at this
          · intro ρ ha z hz
            rw [mem]
            exact (ha x v' (by rw [hlook, if_pos rfl]) true z).2 (mem_mono v' hv.1 z hz)
      | any => simp [Ty.isAny] at hanyr
      | _ => simp only [receive]; exact hrest rfl
    · -- unionValue
      intro vs r b hp hb hcv hcr b' hres
      cases vs with
      | nil =>
        rw [unionValue] at hres
        cases hres
        exact ⟨rfl, fun _ _ v hv => (by cases hv)⟩
      | cons v vs =>
        rw [unionValue] at hres
        have hpost := ihu v r b (hp v (by simp)) hb
        cases hu : unify H n v r b with
        | ok ans b1 =>
          rw [hu] at hres hpost
          cases ans with
          | false => cases hres
          | true =>
            obtain ⟨_, _, h3, h4⟩ := hpost
            have he := h3 (hcv v (by simp)) hcr
            subst he
            obtain ⟨h5, h6⟩ := ihv vs r b1 (fun v hv => hp v (by simp [hv])) hb (fun v hv => hcv v (by simp [hv])) hcr b' hres
            refine ⟨h5, fun ρ ha w hw => ?_⟩
            rcases List.mem_cons.1 hw with rfl | hw
            · exact h4 ρ ha
            · exact h6 ρ ha w hw
        | crash => rw [hu] at hres; cases hres
        | outOfFuel => rw [hu] at hres; cases hres
    · -- unionRecv
      intro v rs b hp hb
      cases rs with
      | nil => rw [unionRecv]; trivial
      | cons r rs =>
        rw [unionRecv]
        have hpost := ihu v r b (hp r (by simp)) hb
        cases hu : unify H n v r b with
        | ok ans b1 =>
          rw [hu] at hpost
          cases ans with
          | true =>
            obtain ⟨h1, h2, h3, h4⟩ := hpost
            refine ⟨h1, h2, fun hv hr => h3 hv ((part_union (by simp)).1 _ hr), ?_⟩
            intro ρ ha x hx
            rw [mem, memUnion]
            exact .inl (h4 ρ ha x hx)
          | false =>
            have := ihr v rs b (fun r hr => hp r (by simp [hr])) hb
            simp only
            cases hu2 : unionRecv H n v rs b with
            | ok ans b2 =>
              rw [hu2] at this
              cases ans with
              | false => trivial
              | true =>
                obtain ⟨h1, h2, h3, h4⟩ := this
                refine ⟨h1, h2, ?_, ?_⟩
                · intro hv hr
                  refine h3 hv ?_
                  simp only [Ty.all, allAll, Bool.and_eq_true] at hr ⊢
                  exact ⟨rfl, hr.2.2⟩
                · intro ρ ha x hx
                  have := h4 ρ ha x hx
                  rw [mem] at this ⊢
                  rw [memUnion]
                  exact .inr this
            | _ => trivial
        | _ => trivial
    · -- tuples
      intro v r b hp hb hv hr
      cases v with
      | any => simp [Ty.plain] at hv
      | var x => simp [Ty.plain] at hv
      | union ts => simp [Ty.plain] at hv
      | cls c args => simp only [tuples]; exact ihtr _ r b hp hb rfl hr (by simp) (by simp)
      | callable a t => simp only [tuples]; exact ihtr _ r b hp hb rfl hr (by simp) (by simp)
      | tuple ts =>
        rw [tuples]
        have hrest := fun h => ihtr (.tuple ts) r b hp hb rfl hr (by simp) h
        cases hun : uniform H ts with
        | none => exact hrest (by rintro ⟨⟩; simp [uniform] at hun)
        | some t =>
          have hpre : Pre H (.cls H.sequenceC [t]) r := by
            rcases uniform_cases hun with ⟨_, rfl⟩ | ⟨h1, _⟩
            · exact (hp.object hH).sequence hH (Part.refl _)
            · exact hp.sequence hH (part_tuple h1)
          have hsub : ∀ ρ x, mem H ρ false (.tuple ts) x → mem H ρ false (.cls H.sequenceC [t]) x := by
            intro ρ x hx
            cases x with
            | tup items =>
              rw [mem] at hx
              refine mem_sequence hH ?_
              rcases uniform_cases hun with ⟨rfl, rfl⟩ | ⟨_, h2⟩
              · exact fun x _ => mem_object hH ρ false x
              · exact mem_uniform h2 hx
            | _ => simp [mem] at hx
          have hcl : (Ty.tuple ts).all Ty.notVar = true → (Ty.cls H.sequenceC [t]).all Ty.notVar = true := by
            intro h
            rcases uniform_cases hun with ⟨_, rfl⟩ | ⟨h1, _⟩
            · rfl
            · simp [Ty.all, allAll, Ty.notVar, closed_items h t h1]
          have hpost := (ihu _ r b hpre hb).weaken hcl hsub
          simp only
          cases hu : unify H n (.cls H.sequenceC [t]) r b with
          | ok ans b1 =>
            rw [hu] at hpost
            cases ans with
            | true => exact hpost
            | false =>
              simp only
              split
              · trivial
              · rename_i hemp
                exact hrest (by rintro ⟨⟩; simp at hemp)
          | _ => trivial
      | tupleVar t =>
        rw [tuples]
        have hpost := (ihu (.cls H.sequenceC [t]) r b (hp.sequence hH (part_tupleVar t)) hb).weaken (v := .tupleVar t)
          (fun h => by simpa [Ty.all, allAll, Ty.notVar] using h)
          (fun ρ x hx => by
            cases x with
            | tup items => rw [mem] at hx; exact mem_sequence hH hx
            | _ => simp [mem] at hx)
        cases hu : unify H n (.cls H.sequenceC [t]) r b with
        | ok ans b1 =>
          rw [hu] at hpost
          cases ans with
          | true => exact hpost
          | false =>
            exact (ihtr .tupleRaw r b hp.raw hb rfl hr (by simp) (by simp)).weaken (fun _ => rfl)
              (fun ρ x hx => by cases x <;> simp_all [mem])
        | _ => trivial
      | tupleRaw =>
        rw [tuples]
        have hpost := (ihu (.cls H.sequenceC [.cls H.objectC []]) r b ((hp.object hH).sequence hH (Part.refl _)) hb).weaken
          (v := .tupleRaw) (fun h => rfl)
          (fun ρ x hx => by
            cases x with
            | tup items => exact mem_sequence hH (fun x _ => mem_object hH ρ false x)
            | _ => simp [mem] at hx)
        cases hu : unify H n (.cls H.sequenceC [.cls H.objectC []]) r b with
        | ok ans b1 =>
          rw [hu] at hpost
          cases ans with
          | true => exact hpost
          | false => exact ihtr .tupleRaw r b hp hb rfl hr (by simp) (by simp)
        | _ => trivial
    · -- tupleRecv
      intro v r b hp hb hv hr hnv hne
      have hlong : r.notLong = true := by
        rcases hp.tuples with ⟨_, h⟩ | ⟨_, _, _, h⟩
        · exact all_self h
        · have := side_self h
          cases r <;> simp_all [Ty.notTuple, Ty.notLong]
      cases r with
      | tupleVar t => simp [Ty.notLong] at hlong
      | tupleRaw => simp [Ty.notLong] at hlong
      | _ => simp only [tupleRecv]; exact ihc v _ b hp hb hv hr hnv hne
    · -- classes
      intro v r b hp hb hv hr hnv hne
      rw [classes]
      have hlong : r.notLong = true := by
        rcases hp.tuples with ⟨_, h⟩ | ⟨_, _, _, h⟩
        · exact all_self h
        · have := side_self h
          cases r <;> simp_all [Ty.notTuple, Ty.notLong]
      by_cases hsub : H.sub (origin H v) (origin H r) = true
      · rw [if_pos hsub]
        by_cases hcall : H.sub (origin H r) H.callableC = true
        · rw [if_pos hcall]
          have hvcall : H.sub (origin H v) H.callableC = true := hH.trans _ _ _ hsub hcall
          rcases origin_cls hv hp.properV hvcall hH with ⟨va, vr, rfl⟩ | ⟨c, rfl, hc1, hc2⟩
          · rcases origin_cls hr hp.properR hcall hH with ⟨ra, rr, rfl⟩ | ⟨d, rfl, hd1, hd2⟩
            · simp only [callArgs]
              have hret := ihu vr rr b (hp.part (part_ret va vr) (part_ret ra rr)) hb
              cases hu : unify H n vr rr b with
              | ok ans b1 =>
                rw [hu] at hret
                cases ans with
                | false => trivial
                | true =>
                  obtain ⟨h1, h2, h3, h4⟩ := hret
                  have hcl := fun hv hr => h3 ((part_ret va vr).1 _ hv) ((part_ret ra rr).1 _ hr)
                  cases va with
                  | none => exact ⟨h1, h2, hcl, fun ρ ha => sound_callable hH (h4 ρ ha) (by simp)⟩
                  | some vs =>
                    cases ra with
                    | none => exact ⟨h1, h2, hcl, fun ρ ha => sound_callable hH (h4 ρ ha) (by simp)⟩
                    | some rs =>
                      simp only
                      by_cases hlen : vs.length = rs.length
                      · rw [if_neg (by simp [hlen])]
                        have hall := ihl rs vs b1 (fun x hx y hy => hp.flip (anti_arg hy) (anti_arg hx)) h1
                        cases hu2 : unifyAll H n rs vs b1 with
                        | ok ans b2 =>
                          rw [hu2] at hall
                          cases ans with
                          | false => trivial
                          | true =>
                            obtain ⟨g1, g2, g3, g4⟩ := hall
                            refine ⟨g1, h2.trans g2, ?_, ?_⟩
                            · intro hv hr
                              rw [g3 (fun x hx => (anti_arg hx).1 _ hr) (fun x hx => (anti_arg hx).1 _ hv)]
                              exact hcl hv hr
                            · intro ρ ha
                              refine sound_callable hH (h4 ρ (ha.mono g2)) ?_
                              intro vs' rs' hvs hrs
                              cases hvs
                              cases hrs
                              exact ⟨hlen, fun i v r hr hv => g4 ρ ha i r v hr hv⟩
                        | _ => trivial
                      · rw [if_pos hlen]; trivial
              | _ => trivial
            · exfalso
              simp only [origin] at hsub
              have := hH.trans _ _ _ hH.functionCallable hsub
              rw [hd2] at this
              cases this
          · rcases origin_cls hr hp.properR hcall hH with ⟨ra, rr, rfl⟩ | ⟨d, rfl, hd1, hd2⟩
            · simp only [callArgs]
              have hret := ihu .any rr b ((hp.part (Part.refl _) (part_ret ra rr)).any) hb
              cases hu : unify H n .any rr b with
              | ok ans b1 =>
                rw [hu] at hret
                cases ans with
                | false => trivial
                | true =>
                  obtain ⟨h1, h2, h3, h4⟩ := hret
                  refine ⟨h1, h2, fun _ hr => h3 rfl ((part_ret ra rr).1 _ hr), ?_⟩
                  intro ρ _ x hx
                  rw [mem] at hx
                  cases x with
                  | obj e ps =>
                    have := hH.trans _ _ _ hx.1 hc1
                    simpa [mem, Val.cls] using this
                  | tup items =>
                    have := hH.trans _ _ _ hx.1 hc1
                    simp [Val.cls, hH.tupleCallable] at this
                  | fn acc calls =>
                    have := hx.1
                    simp [Val.cls, hc2] at this
              | _ => trivial
            · simp only [callArgs]
              have hret := ihu .any .any b ⟨rfl, rfl, .inl ⟨rfl, rfl⟩, .inl ⟨rfl, rfl⟩⟩ hb
              cases hu : unify H n .any .any b with
              | ok ans b1 =>
                rw [hu] at hret
                cases ans with
                | false => trivial
                | true =>
                  obtain ⟨h1, h2, h3, h4⟩ := hret
                  refine ⟨h1, h2, fun _ hr => h3 rfl rfl, ?_⟩
                  intro ρ _ x hx
                  rw [mem] at hx ⊢
                  exact ⟨hH.trans _ _ _ hx.1 hsub, by simp [memParts]⟩
              | _ => trivial
        · rw [if_neg hcall]
          -- the arguments of two types
          have hargs : ∀ (vs rs : List Ty), (∀ x ∈ vs, Part x v) → (∀ y ∈ rs, Part y r) →
              (∀ ρ, (∀ ps, memParts H ρ false (rs.map fun _ => .cls H.objectC []) ps → memParts H ρ true rs ps) → vs = [] →
                Accepts H ρ v r) →
              (∀ ρ, vs.length = rs.length → (∀ (i : Nat) (v r : Ty), vs[i]? = some v → rs[i]? = some r → Accepts H ρ v r) →
                Accepts H ρ v r) → Post H v r b (arguments H n vs rs b) := by
            intro vs rs hvs hrs hnil hlen
            have h := iha vs rs b (fun x hx y hy => hp.part (hvs x hx) (hrs y hy))
              (fun y hy => (hp.part (Part.refl _) (hrs y hy)).object hH) hb
            cases hu : arguments H n vs rs b with
            | ok ans b1 =>
              cases ans with
              | false => trivial
              | true =>
                rcases h b1 hu with ⟨h0, h1, h2, h3, h4⟩ | ⟨h0, h1, h2, h3, h4⟩
                · refine ⟨h1, h2, fun _ hr => h3 ?_ (fun y hy => (hrs y hy).1 _ hr), ?_⟩
                  · intro x hx
                    obtain ⟨_, _, rfl⟩ := List.mem_map.1 hx
                    rfl
                  · intro ρ ha
                    exact hnil ρ (fun ps => parts_accept (by simp) (h4 ρ ha)) h0
                · exact ⟨h1, h2, fun hv hr => h3 (fun x hx => (hvs x hx).1 _ hv) (fun y hy => (hrs y hy).1 _ hr),
                    fun ρ ha => hlen ρ h0 (h4 ρ ha)⟩
            | _ => trivial
          have hcls : ∀ {d : Nat} {rs : List Ty} {ρ : Env} {x : Val}, r = .cls d rs → H.sub (x.cls H) (origin H v) = true →
              memParts H ρ true rs x.parts → mem H ρ true r x := by
            intro d rs ρ x he hs hm
            subst he
            rw [mem]
            exact ⟨hH.trans _ _ _ hs hsub, hm⟩
          cases r with
          | any => simp [Ty.plain] at hr
          | var x => simp [Ty.plain] at hr
          | union ts => simp [Ty.plain] at hr
          | tupleVar t => simp [Ty.notLong] at hlong
          | tupleRaw => simp [Ty.notLong] at hlong
          | callable a t => simp [origin, hH.refl] at hcall
          | cls d rs =>
            cases v with
            | any => simp [Ty.plain] at hv
            | var x => simp [Ty.plain] at hv
            | union ts => simp [Ty.plain] at hv
            | tupleVar t => exact absurd rfl (hnv t)
            | callable a t =>
              simp only [pairing]
              by_cases h2 : rs.length = 2
              · rw [if_pos h2]; trivial
              · rw [if_neg h2]; trivial
            | cls c vs =>
              refine hargs vs rs (fun x hx => part_cls hx) (fun y hy => part_cls hy) ?_ ?_
              · intro ρ h _ x hx
                rw [mem] at hx
                exact hcls rfl hx.1 (h _ (memParts_objects hH ρ rs _))
              · intro ρ hlen h x hx
                rw [mem] at hx
                exact hcls rfl hx.1 (parts_accept hlen h hx.2)
            | tupleRaw =>
              refine hargs [] rs (fun x hx => (by cases hx)) (fun y hy => part_cls hy) ?_ ?_
              · intro ρ h _ x hx
                cases x with
                | tup items => exact hcls rfl (hH.refl _) (h _ (memParts_objects hH ρ rs _))
                | _ => simp [mem] at hx
              · intro ρ hlen h x hx
                have : rs = [] := List.length_eq_zero_iff.1 hlen.symm
                subst this
                cases x with
                | tup items => exact hcls rfl (hH.refl _) (by simp [memParts])
                | _ => simp [mem] at hx
            | tuple vs =>
              refine hargs vs rs (fun x hx => part_tuple hx) (fun y hy => part_cls hy) ?_ ?_
              · intro ρ h h0; subst h0; exact absurd rfl hne
              · intro ρ hlen h x hx
                cases x with
                | tup items =>
                  rw [mem] at hx
                  refine hcls rfl (hH.refl _) ?_
                  have hle : rs.length ≤ 1 := by
                    have h1 := all_self hp.properR
                    have h2 := hH.tupleParams d hsub
                    simp only [Ty.proper, Bool.and_eq_true, Bool.or_eq_true, List.isEmpty_iff, beq_iff_eq] at h1
                    rcases h1.1.1 with h1 | h1
                    · simp [h1]
                    · omega
                  refine parts_accept hlen h ?_
                  cases vs with
                  | nil => simp [memParts]
                  | cons y ys =>
                    cases ys with
                    | nil =>
                      cases items with
                      | nil => simp [memItems] at hx
                      | cons z zs =>
                        have := items_length hx
                        cases zs with
                        | nil => simpa [Val.parts, memParts, memItems] using hx
                        | cons => simp at this
                    | cons => simp at hlen; omega
                | _ => simp [mem] at hx
          | tuple rs =>
            cases v with
            | any => simp [Ty.plain] at hv
            | var x => simp [Ty.plain] at hv
            | union ts => simp [Ty.plain] at hv
            | tupleVar t => exact absurd rfl (hnv t)
            | callable a t => trivial
            | cls c vs => trivial
            | tupleRaw =>
              exfalso
              rcases hp.tuples with ⟨h, _⟩ | ⟨_, _, _, h⟩
              · have := all_self h; simp [Ty.notLong] at this
              · have := side_self h; simp [Ty.notTuple] at this
            | tuple vs =>
              refine hargs vs rs (fun x hx => part_tuple hx) (fun y hy => part_tuple hy) ?_ ?_
              · intro ρ h h0; subst h0; exact absurd rfl hne
              · intro ρ hlen h x hx
                cases x with
                | tup items => rw [mem] at hx ⊢; exact items_accept hlen h hx
                | _ => simp [mem] at hx
      · rw [if_neg hsub]; trivial
    · -- arguments
      intro vs rs b hp ho hb b' hres
      rw [arguments] at hres
      split at hres
      · split at hres
        · rename_i h0
          have hnil : vs = [] := List.length_eq_zero_iff.1 h0
          refine .inl ⟨hnil, ?_⟩
          have := ihl (rs.map fun _ => .cls H.objectC []) rs b ?_ hb
          · rw [hres] at this; exact this
          · intro v hv r hr
            obtain ⟨_, _, rfl⟩ := List.mem_map.1 hv
            exact ho r hr
        · cases hres
      · rename_i hlen
        have := ihl vs rs b hp hb
        rw [hres] at this
        exact .inr ⟨by omega, this⟩
    · -- unifyAll
      intro vs rs b hp hb
      cases vs with
      | nil => cases rs <;> simp only [unifyAll] <;> exact ⟨hb, Ext.refl b, fun _ _ => rfl, by simp⟩
      | cons v vs =>
        cases rs with
        | nil => simp only [unifyAll]; exact ⟨hb, Ext.refl b, fun _ _ => rfl, by simp⟩
        | cons r rs =>
          rw [unifyAll]
          have hpost := ihu v r b (hp v (by simp) r (by simp)) hb
          cases hu : unify H n v r b with
          | ok ans b1 =>
            rw [hu] at hpost
            cases ans with
            | false => trivial
            | true =>
              obtain ⟨h1, h2, h3, h4⟩ := hpost
              have hall := ihl vs rs b1 (fun v hv r hr => hp v (by simp [hv]) r (by simp [hr])) h1
              simp only
              cases hu2 : unifyAll H n vs rs b1 with
              | ok ans b2 =>
                rw [hu2] at hall
                cases ans with
                | false => trivial
                | true =>
                  obtain ⟨g1, g2, g3, g4⟩ := hall
                  refine ⟨g1, h2.trans g2, ?_, ?_⟩
                  · intro hv hr
                    rw [g3 (fun v h => hv v (by simp [h])) (fun r h => hr r (by simp [h]))]
                    exact h3 (hv v (by simp)) (hr r (by simp))
                  · intro ρ ha i v' r' hv hr
                    cases i with
                    | zero =>
                      simp at hv hr
                      subst hv hr
                      exact h4 ρ (ha.mono g2)
                    | succ i => exact g4 ρ ha i v' r' (by simpa using hv) (by simpa using hr)
              | _ => trivial
          | _ => trivial

end Verif.Unify
