import Verif.Copy.Spec

namespace Verif.Copy

theorem reach_refl (H : List Obj) (a : Nat) : Reach H a a := ⟨[], rfl⟩

theorem reach_kid {H : List Obj} {a k b : Nat} {o : Obj} (ho : H[a]? = some o) (hk : k ∈ o.kids) (h : Reach H k b) :
    Reach H a b := by
  obtain ⟨i, hi⟩ := List.getElem?_of_mem hk
  obtain ⟨p, hp⟩ := h
  exact ⟨i :: p, by simp only [resolve, ho, hi, hp]⟩

/-- The copy of an object, if the memo has one. -/
def St.img (s : St) (a : Nat) : Option Nat := s.memo.lookup a

theorem img_memoize (s : St) (a c b : Nat) : (s.memoize a c).img b = if b = a then some c else s.img b := by
  simp only [St.img, St.memoize, List.lookup_cons]
  by_cases h : b = a
  · simp [h]
  · simp [h, beq_eq_false_iff_ne.2 h]

/-- The state only grows. -/
def Le (s s' : St) : Prop :=
  (∀ a c, s.img a = some c → s'.img a = some c) ∧ s.heap <+: s'.heap ∧ ∀ a ∈ s.kept, a ∈ s'.kept

theorem le_refl (s : St) : Le s s := ⟨fun _ _ h => h, List.prefix_refl _, fun _ h => h⟩

theorem le_trans {s s' s'' : St} (h : Le s s') (h' : Le s' s'') : Le s s'' :=
  ⟨fun a c hc => h'.1 a c (h.1 a c hc), h.2.1.trans h'.2.1, fun a ha => h'.2.2 a (h.2.2 a ha)⟩

theorem prefix_get {α : Type} {l l' : List α} (h : l <+: l') {i : Nat} {x : α} (hx : l[i]? = some x) :
    l'[i]? = some x := by
  obtain ⟨t, rfl⟩ := h
  have hi : i < l.length := (List.getElem?_eq_some_iff.1 hx).1
  rw [List.getElem?_append_left hi, hx]

section
variable (H : List Obj) (mode : Mode)

/-- Object `c` is the finished copy of `a`. -/
def Good (s : St) (a c : Nat) : Prop :=
  ∃ o oc, H[a]? = some o ∧ s.heap[c]? = some oc ∧ oc.kind = o.kind.copied mode ∧
    o.kids.map s.img = oc.kids.map some ∧ (c < H.length → c = a ∧ o.kind.mutable = false) ∧
    (mode = .regular → ∀ v, o.kind ≠ .locked v)

/-- The invariant; `P` has the objects whose copies are not finished. -/
structure Inv (P : List (Nat × Nat)) (s : St) : Prop where
  pre : H <+: s.heap
  src : ∀ a c, s.img a = some c → a < H.length ∧ c < s.heap.length ∧ a ∈ s.kept
  good : ∀ a c, s.img a = some c → (a, c) ∈ P ∨ Good H mode s a c
  inj : ∀ a b c, s.img a = some c → s.img b = some c → H.length ≤ c → a = b
  pend : ∀ a c, (a, c) ∈ P → s.img a = some c ∧ H.length ≤ c

/-- Only objects reachable from these have got copies. -/
def NewOnly (s s' : St) (xs : List Nat) : Prop :=
  ∀ b, s'.img b ≠ none → s.img b ≠ none ∨ ∃ x ∈ xs, Reach H x b
end

variable {H : List Obj} {mode : Mode}

theorem map_img_le {s s' : St} (h : ∀ a c, s.img a = some c → s'.img a = some c) {xs ys : List Nat}
    (hm : xs.map s.img = ys.map some) : xs.map s'.img = ys.map some := by
  induction xs generalizing ys with
  | nil => simpa using hm
  | cons x xs ih =>
    cases ys with
    | nil => simp at hm
    | cons y ys =>
      simp only [List.map_cons, List.cons.injEq] at hm ⊢
      exact ⟨h x y hm.1, ih hm.2⟩

theorem good_le {s s' : St} (h : Le s s') {a c : Nat} (hg : Good H mode s a c) : Good H mode s' a c := by
  obtain ⟨o, oc, h1, h2, h3, h4, h5, h6⟩ := hg
  exact ⟨o, oc, h1, prefix_get h.2.1 h2, h3, map_img_le h.1 h4, h5, h6⟩

theorem inv_congr {P : List (Nat × Nat)} {s s' : St} (h : Inv H mode P s) (hh : s'.heap = s.heap)
    (hi : ∀ a, s'.img a = s.img a) (hk : ∀ a ∈ s.kept, a ∈ s'.kept) : Inv H mode P s' := by
  have he : s'.img = s.img := funext hi
  refine ⟨by rw [hh]; exact h.pre, ?_, ?_, ?_, ?_⟩
  · intro a c hc
    rw [hi] at hc
    have := h.src a c hc
    exact ⟨this.1, by rw [hh]; exact this.2.1, hk a this.2.2⟩
  · intro a c hc
    rw [hi] at hc
    rcases h.good a c hc with hg | hg
    · exact .inl hg
    · refine .inr ?_
      unfold Good at hg ⊢
      rw [hh, he]; exact hg
  · intro a b c h1 h2
    rw [hi] at h1 h2
    exact h.inj a b c h1 h2
  · intro a c hp
    rw [hi]; exact h.pend a c hp

theorem inv_keep {P : List (Nat × Nat)} {s : St} (h : Inv H mode P s) (a : Nat) : Inv H mode P (s.keep a) :=
  inv_congr h rfl (fun _ => rfl) (fun _ hx => List.mem_cons_of_mem _ hx)

theorem le_keep (s : St) (a : Nat) : Le s (s.keep a) :=
  ⟨fun _ _ h => h, List.prefix_refl _, fun _ h => List.mem_cons_of_mem _ h⟩

theorem le_alloc (s : St) (o : Obj) : Le s (s.alloc o) := ⟨fun _ _ h => h, List.prefix_append _ _, fun _ h => h⟩

theorem inv_alloc {P : List (Nat × Nat)} {s : St} (h : Inv H mode P s) (o : Obj) : Inv H mode P (s.alloc o) := by
  refine ⟨h.pre.trans (List.prefix_append _ _), ?_, ?_, h.inj, h.pend⟩
  · intro a c hc
    have := h.src a c hc
    refine ⟨this.1, ?_, this.2.2⟩
    simp only [St.alloc, List.length_append, List.length_singleton]
    have := this.2.1
    omega
  · intro a c hc
    rcases h.good a c hc with hg | hg
    · exact .inl hg
    · exact .inr (good_le (le_alloc s o) hg)

theorem le_memoize {s : St} {a : Nat} (c : Nat) (h : s.img a = none) : Le s (s.memoize a c) := by
  refine ⟨?_, List.prefix_refl _, fun _ h => h⟩
  intro b d hb
  rw [img_memoize]
  by_cases hab : b = a
  · subst hab; rw [h] at hb; cases hb
  · rw [if_neg hab]; exact hb

/-- Entering a copy into the memo that is new or shared. -/
theorem inv_memoize {P : List (Nat × Nat)} {s : St} (h : Inv H mode P s) {a c : Nat} (hn : s.img a = none)
    (ha : a < H.length) (hk : a ∈ s.kept) (hc : c < s.heap.length)
    (hg : (a, c) ∈ P ∨ Good H mode (s.memoize a c) a c) (hf : H.length ≤ c → ∀ b, s.img b ≠ some c) :
    Inv H mode P (s.memoize a c) := by
  have hle := le_memoize c hn
  refine ⟨h.pre, ?_, ?_, ?_, ?_⟩
  · intro b d hb
    rw [img_memoize] at hb
    by_cases hab : b = a
    · rw [if_pos hab] at hb; cases hb; subst hab; exact ⟨ha, hc, hk⟩
    · rw [if_neg hab] at hb; exact h.src b d hb
  · intro b d hb
    rw [img_memoize] at hb
    by_cases hab : b = a
    · rw [if_pos hab] at hb; cases hb; subst hab; exact hg
    · rw [if_neg hab] at hb
      rcases h.good b d hb with h1 | h1
      · exact .inl h1
      · exact .inr (good_le hle h1)
  · intro b b' d h1 h2 hd
    rw [img_memoize] at h1 h2
    by_cases hab : b = a
    · rw [if_pos hab] at h1
      cases h1
      by_cases hab' : b' = a
      · rw [hab, hab']
      · rw [if_neg hab'] at h2; exact absurd h2 (hf hd b')
    · rw [if_neg hab] at h1
      by_cases hab' : b' = a
      · rw [if_pos hab'] at h2; cases h2; exact absurd h1 (hf hd b)
      · rw [if_neg hab'] at h2; exact h.inj b b' d h1 h2 hd
  · intro b d hp
    have := h.pend b d hp
    exact ⟨hle.1 b d this.1, this.2⟩

/-- Entering a copy again changes nothing. -/
theorem inv_memoize_again {P : List (Nat × Nat)} {s : St} (h : Inv H mode P s) {a c : Nat}
    (ha : s.img a = some c) : Inv H mode P (s.memoize a c) := by
  refine inv_congr h rfl ?_ (fun _ hx => hx)
  intro b
  rw [img_memoize]
  by_cases hab : b = a
  · rw [if_pos hab, hab, ha]
  · rw [if_neg hab]

theorem le_memoize_again {s : St} {a c : Nat} (ha : s.img a = some c) : Le s (s.memoize a c) := by
  refine ⟨?_, List.prefix_refl _, fun _ h => h⟩
  intro b d hb
  rw [img_memoize]
  by_cases hab : b = a
  · subst hab; rw [ha] at hb; rw [if_pos rfl]; exact hb
  · rw [if_neg hab]; exact hb

theorem not_img_new {P : List (Nat × Nat)} {s : St} (h : Inv H mode P s) (b : Nat) : s.img b ≠ some s.heap.length := by
  intro hb
  have := (h.src b _ hb).2.1
  omega

theorem copied_of_not_sym {k : Kind} (h : ∀ v, k ≠ .sym v) : k.copied mode = k := by
  cases k <;> simp_all [Kind.copied]

theorem newOnly_memoize {s s' : St} {a c : Nat} (h : NewOnly H s s' [a]) : NewOnly H s (s'.memoize a c) [a] := by
  intro b hb
  rw [img_memoize] at hb
  by_cases hab : b = a
  · exact .inr ⟨a, by simp, hab ▸ reach_refl H b⟩
  · rw [if_neg hab] at hb; exact h b hb

/-- A finished copy, new at the end of the heap. -/
theorem inv_new {P : List (Nat × Nat)} {s : St} (h : Inv H mode P s) {a : Nat} {o : Obj} (ho : H[a]? = some o)
    (hn : s.img a = none) (hk : a ∈ s.kept) (oc : Obj) (hkind : oc.kind = o.kind.copied mode)
    (hkids : o.kids.map s.img = oc.kids.map some) (hl : ∀ v, o.kind ≠ .locked v) :
    Inv H mode P ((s.alloc oc).memoize a s.heap.length) := by
  have ha : a < H.length := (List.getElem?_eq_some_iff.1 ho).1
  have hH : H.length ≤ s.heap.length := h.pre.length_le
  refine inv_memoize (inv_alloc h oc) hn ha hk (by simp [St.alloc]) (.inr ?_) (fun _ b => not_img_new h b)
  refine ⟨o, oc, ho, ?_, hkind, ?_, fun hlt => by omega, fun _ => hl⟩
  · simp [St.memoize, St.alloc]
  · exact map_img_le (le_memoize (s := s.alloc oc) _ hn).1 hkids

/-- A copy that is the object itself. -/
theorem inv_shared {P : List (Nat × Nat)} {s : St} (h : Inv H mode P s) {a : Nat} {o : Obj} (ho : H[a]? = some o)
    (hn : s.img a = none) (hk : a ∈ s.kept) (hkind : ∀ v, o.kind ≠ .sym v) (hmut : o.kind.mutable = false)
    (hkids : o.kids.map s.img = o.kids.map some) (hl : mode = .regular → ∀ v, o.kind ≠ .locked v) :
    Inv H mode P (s.memoize a a) := by
  have ha : a < H.length := (List.getElem?_eq_some_iff.1 ho).1
  have hH : H.length ≤ s.heap.length := h.pre.length_le
  refine inv_memoize h hn ha hk (by omega) (.inr ?_) (fun hle => by omega)
  exact ⟨o, o, ho, prefix_get h.pre ho, (copied_of_not_sym hkind).symm, map_img_le (le_memoize _ hn).1 hkids,
    fun _ => ⟨rfl, hmut⟩, hl⟩

theorem get_modify_ne {α : Type} (l : List α) (i j : Nat) (f : α → α) (h : i ≠ j) : (l.modify i f)[j]? = l[j]? := by
  rw [List.getElem?_modify]; simp [h]

theorem prefix_modify {H l : List Obj} (h : H <+: l) (y : Nat) (hy : H.length ≤ y) (f : Obj → Obj) :
    H <+: l.modify y f := by
  obtain ⟨t, rfl⟩ := h
  refine ⟨t.modify (y - H.length) f, ?_⟩
  apply List.ext_getElem?
  intro i
  rw [List.getElem?_modify]
  rcases Nat.lt_or_ge i H.length with hi | hi
  · rw [List.getElem?_append_left hi, List.getElem?_append_left hi, ]
    have : y ≠ i := by omega
    simp [this]
  · rw [List.getElem?_append_right hi, List.getElem?_append_right hi, List.getElem?_modify]
    by_cases he : y = i
    · subst he; simp
    · have : y - H.length ≠ i - H.length := by omega
      simp [this, he]

/-- Appending to an unfinished copy. -/
theorem inv_append {P : List (Nat × Nat)} {s : St} (h : Inv H mode P s) {a y : Nat} (hp : (a, y) ∈ P) (c : Nat) :
    Inv H mode P (s.append y c) := by
  obtain ⟨hay, hy⟩ := h.pend a y hp
  refine ⟨prefix_modify h.pre y hy _, ?_, ?_, h.inj, h.pend⟩
  · intro b d hb
    have := h.src b d hb
    exact ⟨this.1, by simpa [St.append] using this.2.1, this.2.2⟩
  · intro b d hb
    by_cases hd : d = y
    · subst hd
      have := h.inj b a d hb hay hy
      subst this
      exact .inl hp
    · rcases h.good b d hb with hg | ⟨o, oc, h1, h2, h3⟩
      · exact .inl hg
      · exact .inr ⟨o, oc, h1, by rw [St.append]; simp only; rw [get_modify_ne _ _ _ _ (fun e => hd e.symm)]; exact h2, h3⟩

/-! ## What the functions do -/

/-- Entering a copy into the memo that is yet to be filled. -/
theorem inv_pend {P : List (Nat × Nat)} {s : St} (h : Inv H mode P s) {a : Nat} (ha : a < H.length)
    (hn : s.img a = none) (hk : a ∈ s.kept) (kind : Kind) :
    Inv H mode ((a, s.heap.length) :: P) ((s.alloc ⟨kind, []⟩).memoize a s.heap.length) := by
  have hH : H.length ≤ s.heap.length := h.pre.length_le
  have hle := le_memoize (s := s.alloc ⟨kind, []⟩) s.heap.length hn
  have hal := inv_alloc h ⟨kind, []⟩
  refine ⟨hal.pre, ?_, ?_, ?_, ?_⟩
  · intro b d hb
    rw [img_memoize] at hb
    by_cases hab : b = a
    · rw [if_pos hab] at hb; cases hb; subst hab
      exact ⟨ha, by simp [St.memoize, St.alloc], hk⟩
    · rw [if_neg hab] at hb; exact hal.src b d hb
  · intro b d hb
    rw [img_memoize] at hb
    by_cases hab : b = a
    · rw [if_pos hab] at hb; cases hb; subst hab
      exact .inl (List.mem_cons_self ..)
    · rw [if_neg hab] at hb
      rcases hal.good b d hb with h1 | h1
      · exact .inl (List.mem_cons_of_mem _ h1)
      · exact .inr (good_le hle h1)
  · intro b b' d h1 h2 hd
    rw [img_memoize] at h1 h2
    by_cases hab : b = a
    · rw [if_pos hab] at h1
      cases h1
      by_cases hab' : b' = a
      · rw [hab, hab']
      · rw [if_neg hab'] at h2; exact absurd h2 (not_img_new h b')
    · rw [if_neg hab] at h1
      by_cases hab' : b' = a
      · rw [if_pos hab'] at h2; cases h2; exact absurd h1 (not_img_new h b)
      · rw [if_neg hab'] at h2; exact h.inj b b' d h1 h2 hd
  · intro b d hp
    rcases List.mem_cons.1 hp with e | hp
    · cases e
      exact ⟨by rw [img_memoize, if_pos rfl], hH⟩
    · have := h.pend b d hp
      exact ⟨hle.1 b d this.1, this.2⟩

/-- What is known when an object cannot be copied. -/
def Stuck (H : List Obj) (mode : Mode) (a : Nat) : Prop :=
  mode = .regular ∧ ∃ b o v, Reach H a b ∧ H[b]? = some o ∧ o.kind = .locked v

def CopyPost (H : List Obj) (mode : Mode) (P : List (Nat × Nat)) (a : Nat) (s : St) : Res Nat → Prop
  | .ok c s' => Inv H mode P s' ∧ Le s s' ∧ s'.img a = some c ∧ NewOnly H s s' [a]
  | .typeError _ => Stuck H mode a
  | .internal => False
  | .outOfFuel => True

def ConstructPost (H : List Obj) (mode : Mode) (P : List (Nat × Nat)) (a : Nat) (s : St) : Res Nat → Prop
  | .ok c s' => Inv H mode P (s'.memoize a c) ∧ Le s (s'.memoize a c) ∧ NewOnly H s s' [a]
  | .typeError s' => (s' = s ∧ ∃ o v, H[a]? = some o ∧ o.kind = .locked v) ∨ Stuck H mode a
  | .internal => False
  | .outOfFuel => True

def AllPost (H : List Obj) (mode : Mode) (P : List (Nat × Nat)) (xs : List Nat) (s : St) : Res (List Nat) → Prop
  | .ok ys s' => Inv H mode P s' ∧ Le s s' ∧ xs.map s'.img = ys.map some ∧ NewOnly H s s' xs
  | .typeError _ => ∃ x ∈ xs, Stuck H mode x
  | .internal => False
  | .outOfFuel => True

def FillPost (H : List Obj) (mode : Mode) (P : List (Nat × Nat)) (y : Nat) (xs : List Nat) (s : St) : Res Unit → Prop
  | .ok _ s' => Inv H mode P s' ∧ (∀ a c, s.img a = some c → s'.img a = some c) ∧
      (∀ c < s.heap.length, c ≠ y → s'.heap[c]? = s.heap[c]?) ∧ s.heap.length ≤ s'.heap.length ∧
      (∀ a ∈ s.kept, a ∈ s'.kept) ∧
      (∃ cs, (∀ k ks, s.heap[y]? = some ⟨k, ks⟩ → s'.heap[y]? = some ⟨k, ks ++ cs⟩) ∧ xs.map s'.img = cs.map some) ∧
      NewOnly H s s' xs
  | .typeError _ => ∃ x ∈ xs, Stuck H mode x
  | .internal => False
  | .outOfFuel => True

theorem stuck_kid {a k : Nat} {o : Obj} (ho : H[a]? = some o) (hk : k ∈ o.kids) (h : Stuck H mode k) :
    Stuck H mode a := by
  obtain ⟨h1, b, ob, v, h2, h3⟩ := h
  exact ⟨h1, b, ob, v, reach_kid ho hk h2, h3⟩

theorem newOnly_kids {s s' : St} {a : Nat} {o : Obj} (ho : H[a]? = some o) (h : NewOnly H s s' o.kids) :
    NewOnly H s s' [a] := by
  intro b hb
  rcases h b hb with h1 | ⟨x, hx, hr⟩
  · exact .inl h1
  · exact .inr ⟨a, by simp, reach_kid ho hx hr⟩

theorem spec (hw : Graph H) (hm : mode ≠ .std) : ∀ n : Nat,
    (∀ P a s, a < H.length → Inv H mode P s → CopyPost H mode P a s (copy mode n a s)) ∧
    (∀ P a s, a < H.length → Inv H mode P s → s.img a = none → a ∈ s.kept →
      ConstructPost H mode P a s (construct mode n a s)) ∧
    (∀ P xs s, (∀ x ∈ xs, x < H.length) → Inv H mode P s → AllPost H mode P xs s (copyAll mode n xs s)) ∧
    (∀ P a y xs s, (∀ x ∈ xs, x < H.length) → Inv H mode P s → (a, y) ∈ P →
      FillPost H mode P y xs s (fill mode n y xs s)) := by
  intro n
  induction n with
  | zero =>
    refine ⟨?_, ?_, ?_, ?_⟩ <;> intros <;> simp [copy, construct, copyAll, fill, CopyPost, ConstructPost, AllPost, FillPost]
  | succ n ih =>
    obtain ⟨ihc, ihk, iha, ihf⟩ := ih
    refine ⟨?_, ?_, ?_, ?_⟩
    · -- copy
      intro P a s ha h
      rw [copy]
      cases hl : s.memo.lookup a with
      | some c =>
        have hk := (h.src a c hl).2.2
        simp only [hm, hk, or_true, if_true]
        exact ⟨h, le_refl s, hl, fun b hb => .inl hb⟩
      | none =>
        simp only [hm, if_false, or_false]
        have hk := ihk P a (s.keep a) ha (inv_keep h a) hl (List.mem_cons_self ..)
        cases hr : construct mode n a (s.keep a) with
        | ok c s' =>
          rw [hr] at hk
          obtain ⟨h1, h2, h3⟩ := hk
          refine ⟨h1, le_trans (le_keep s a) h2, by rw [img_memoize, if_pos rfl], ?_⟩
          exact newOnly_memoize (fun b hb => h3 b hb)
        | typeError s' =>
          rw [hr] at hk
          by_cases hreg : mode = .regular
          · simp only [hreg, if_true]
            rcases hk with ⟨_, o, v, ho, hv⟩ | hk
            · exact ⟨rfl, a, o, v, reach_refl H a, ho, hv⟩
            · exact hreg ▸ hk
          · simp only [hreg, if_false]
            rcases hk with ⟨he, o, v, ho, hv⟩ | hk
            · subst he
              refine ⟨?_, le_trans (le_keep s a) (le_memoize a hl), by rw [img_memoize, if_pos rfl], ?_⟩
              · refine inv_shared (inv_keep h a) ho hl (List.mem_cons_self ..) (by simp [hv]) (by simp [hv, Kind.mutable]) ?_
                  (fun e => absurd e hreg)
                rw [hw.leaf a o ho ⟨v, .inr (.inr hv)⟩]; rfl
              · exact newOnly_memoize (fun b hb => .inl hb)
            · exact absurd hk.1 hreg
        | internal => rw [hr] at hk; exact hk
        | outOfFuel => trivial
    · -- construct
      intro P a s ha h hn hk
      have ho : H[a]? = some H[a] := List.getElem?_eq_getElem ha
      generalize H[a] = o at ho
      rw [construct]
      rw [prefix_get h.pre ho]
      simp only
      have hkl : ∀ x ∈ o.kids, x < H.length := hw.closed a o ho
      have listLike : ∀ {kind : Kind}, o.kind = kind → kind.mutable = true → kind.copied mode = kind →
          ConstructPost H mode P a s
            (match fill mode n s.heap.length o.kids ((s.alloc ⟨kind, []⟩).memoize a s.heap.length) with
            | .ok _ s' => .ok s.heap.length s'
            | .typeError s' => .typeError s'
            | .internal => .internal
            | .outOfFuel => .outOfFuel) := by
        intro kind hkind hmut hcop
        have hH : H.length ≤ s.heap.length := h.pre.length_le
        have hlock : ∀ v, o.kind ≠ .locked v := by
          intro v e; rw [hkind] at e; subst e; simp [Kind.mutable] at hmut
        have hpend : Inv H mode ((a, s.heap.length) :: P) ((s.alloc ⟨kind, []⟩).memoize a s.heap.length) :=
          inv_pend h ha hn hk kind
        have hp := ihf ((a, s.heap.length) :: P) a s.heap.length o.kids _ hkl hpend (List.mem_cons_self ..)
        cases hr : fill mode n s.heap.length o.kids ((s.alloc ⟨kind, []⟩).memoize a s.heap.length) with
        | ok u s' =>
          rw [hr] at hp
          obtain ⟨h5, h6, h7, h8, h9, ⟨cs, h10, h11⟩, h12⟩ := hp
          have himg : s'.img a = some s.heap.length := h6 _ _ (by rw [img_memoize, if_pos rfl])
          have hy : s'.heap[s.heap.length]? = some ⟨kind, cs⟩ := by
            have := h10 kind [] (by simp [St.memoize, St.alloc])
            simpa using this
          have hfin : Inv H mode P s' := by
            refine ⟨h5.pre, h5.src, ?_, h5.inj, fun b d hp => h5.pend b d (List.mem_cons_of_mem _ hp)⟩
            intro b d hb
            rcases h5.good b d hb with hg | hg
            · rcases List.mem_cons.1 hg with e | hg
              · cases e
                exact .inr ⟨o, _, ho, hy, by simp [hkind, hcop], h11, fun hlt => by omega, fun _ => hlock⟩
              · exact .inl hg
            · exact .inr hg
          have hal : ((s.alloc ⟨kind, []⟩).memoize a s.heap.length).heap = s.heap ++ [⟨kind, []⟩] := rfl
          rw [hal] at h7 h8
          simp only [List.length_append, List.length_singleton] at h7 h8
          have hle : Le s s' := by
            refine ⟨?_, ?_, h9⟩
            · intro b d hb
              exact h6 b d ((le_memoize (s := s.alloc ⟨kind, []⟩) _ hn).1 b d hb)
            · rw [List.prefix_iff_getElem?]
              intro i hi
              rw [h7 i (by omega) (by omega), List.getElem?_append_left hi, List.getElem?_eq_getElem hi]
          refine ⟨inv_memoize_again hfin himg, le_trans hle (le_memoize_again himg), ?_⟩
          intro b hb
          rcases h12 b hb with h13 | ⟨x, hx, hr⟩
          · rw [img_memoize] at h13
            by_cases hab : b = a
            · exact .inr ⟨a, by simp, hab ▸ reach_refl H b⟩
            · rw [if_neg hab] at h13; exact .inl h13
          · exact .inr ⟨a, by simp, reach_kid ho hx hr⟩
        | typeError s' =>
          rw [hr] at hp
          obtain ⟨x, hx, hs⟩ := hp
          exact .inr (stuck_kid ho hx hs)
        | internal => rw [hr] at hp; exact hp
        | outOfFuel => trivial
      cases hkind : o.kind with
      | atom v =>
        simp only
        refine ⟨?_, le_memoize a hn, fun b hb => .inl hb⟩
        refine inv_shared h ho hn hk (by simp [hkind]) (by simp [hkind, Kind.mutable]) ?_ (by simp [hkind])
        rw [hw.leaf a o ho ⟨v, .inl hkind⟩]; rfl
      | sym v =>
        simp only
        have hkids := hw.leaf a o ho ⟨v, .inr (.inl hkind)⟩
        by_cases hr : mode = .realize
        · simp only [hr, if_true]
          rw [hr] at h
          refine ⟨?_, le_trans (le_alloc s ⟨.atom v, []⟩) (le_trans (le_keep _ s.heap.length) (le_memoize _ hn)), fun b hb => .inl hb⟩
          have := inv_keep (inv_new h ho hn hk ⟨.atom v, []⟩ (by simp [hkind, Kind.copied]) (by simp [hkids])
            (by simp [hkind])) s.heap.length
          exact inv_congr this rfl (fun _ => rfl) (fun _ hx => hx)
        · simp only [hr, if_false]
          refine ⟨?_, le_trans (le_alloc s _) (le_memoize (s := s.alloc _) _ hn), fun b hb => .inl hb⟩
          exact inv_new h ho hn hk ⟨.sym v, []⟩ (by simp [hkind, Kind.copied, hr]) (by simp [hkids]) (by simp [hkind])
      | locked v => exact .inl ⟨rfl, o, v, ho, hkind⟩
      | tuple =>
        simp only
        have hp := iha P o.kids s hkl h
        cases hr : copyAll mode n o.kids s with
        | ok ys s' =>
          rw [hr] at hp
          obtain ⟨h1, h2, h3, h4⟩ := hp
          have hk' : a ∈ s'.kept := h2.2.2 a hk
          simp only
          cases hl : s'.memo.lookup a with
          | some c =>
            exact ⟨inv_memoize_again h1 hl, le_trans h2 (le_memoize_again hl), newOnly_kids ho h4⟩
          | none =>
            simp only
            by_cases hys : ys = o.kids
            · rw [if_pos hys]
              rw [hys] at h3
              exact ⟨inv_shared h1 ho hl hk' (by simp [hkind]) (by simp [hkind, Kind.mutable]) h3 (by simp [hkind]),
                le_trans h2 (le_memoize a hl), newOnly_kids ho h4⟩
            · rw [if_neg hys]
              exact ⟨inv_new h1 ho hl hk' ⟨.tuple, ys⟩ (by simp [hkind, Kind.copied]) h3 (by simp [hkind]),
                le_trans h2 (le_trans (le_alloc s' _) (le_memoize (s := s'.alloc _) _ hl)), newOnly_kids ho h4⟩
        | typeError s' =>
          rw [hr] at hp
          obtain ⟨x, hx, hs⟩ := hp
          exact .inr (stuck_kid ho hx hs)
        | internal => rw [hr] at hp; exact hp
        | outOfFuel => trivial
      | set =>
        simp only
        have hp := iha P o.kids s hkl h
        cases hr : copyAll mode n o.kids s with
        | ok ys s' =>
          rw [hr] at hp
          obtain ⟨h1, h2, h3, h4⟩ := hp
          have hl : s'.img a = none := by
            cases hi : s'.img a with
            | none => rfl
            | some c =>
              rcases h4 a (by rw [hi]; simp) with h5 | ⟨x, hx, hr⟩
              · exact absurd hn h5
              · exact absurd hr (hw.noSetCycle a o ho hkind x hx)
          have hnew := inv_new h1 ho hl (h2.2.2 a hk) ⟨.set, ys⟩ (by simp [hkind, Kind.copied]) h3 (by simp [hkind])
          have himg : ((s'.alloc ⟨.set, ys⟩).memoize a s'.heap.length).img a = some s'.heap.length := by
            rw [img_memoize, if_pos rfl]
          refine ⟨inv_memoize_again hnew himg, le_trans h2 (le_trans (le_alloc s' ⟨.set, ys⟩)
            (le_trans (le_memoize (s := s'.alloc _) _ hl) (le_memoize_again himg))), ?_⟩
          exact newOnly_memoize (s' := s'.alloc ⟨.set, ys⟩) (newOnly_kids ho h4)
        | typeError s' =>
          rw [hr] at hp
          obtain ⟨x, hx, hs⟩ := hp
          exact .inr (stuck_kid ho hx hs)
        | internal => rw [hr] at hp; exact hp
        | outOfFuel => trivial
      | method fn => exact absurd hkind (hw.noMethod a o ho fn)
      | list => exact listLike hkind rfl (by simp [Kind.copied])
      | dict => exact listLike hkind rfl (by simp [Kind.copied])
      | inst c names => exact listLike hkind rfl (by simp [Kind.copied])
    · -- copyAll
      intro P xs s hx h
      cases xs with
      | nil => rw [copyAll]; exact ⟨h, le_refl s, rfl, fun b hb => .inl hb⟩
      | cons x xs =>
        rw [copyAll]
        have hp := ihc P x s (hx x (List.mem_cons_self ..)) h
        cases hr : copy mode n x s with
        | ok c s' =>
          rw [hr] at hp
          obtain ⟨h1, h2, h3, h4⟩ := hp
          simp only
          have hq := iha P xs s' (fun y hy => hx y (List.mem_cons_of_mem _ hy)) h1
          cases hr2 : copyAll mode n xs s' with
          | ok cs s'' =>
            rw [hr2] at hq
            obtain ⟨h5, h6, h7, h8⟩ := hq
            refine ⟨h5, le_trans h2 h6, ?_, ?_⟩
            · simp only [List.map_cons, List.cons.injEq]
              exact ⟨h6.1 x c h3, h7⟩
            · intro b hb
              rcases h8 b hb with h9 | ⟨z, hz, hr⟩
              · rcases h4 b h9 with h10 | ⟨z, hz, hr⟩
                · exact .inl h10
                · exact .inr ⟨z, by simp only [List.mem_singleton] at hz; subst hz; exact List.mem_cons_self .., hr⟩
              · exact .inr ⟨z, List.mem_cons_of_mem _ hz, hr⟩
          | typeError s'' =>
            rw [hr2] at hq
            obtain ⟨z, hz, hs⟩ := hq
            exact ⟨z, List.mem_cons_of_mem _ hz, hs⟩
          | internal => rw [hr2] at hq; exact hq
          | outOfFuel => trivial
        | typeError s' => rw [hr] at hp; exact ⟨x, List.mem_cons_self .., hp⟩
        | internal => rw [hr] at hp; exact hp
        | outOfFuel => trivial
    · -- fill
      intro P a y xs s hx h hy
      cases xs with
      | nil =>
        rw [fill]
        exact ⟨h, fun _ _ h => h, fun _ _ _ => rfl, Nat.le_refl _, fun _ h => h, ⟨[], by simp, rfl⟩, fun b hb => .inl hb⟩
      | cons x xs =>
        rw [fill]
        have hp := ihc P x s (hx x (List.mem_cons_self ..)) h
        cases hr : copy mode n x s with
        | ok c s' =>
          rw [hr] at hp
          obtain ⟨h1, h2, h3, h4⟩ := hp
          simp only
          have hq := ihf P a y xs (s'.append y c) (fun z hz => hx z (List.mem_cons_of_mem _ hz)) (inv_append h1 hy c) hy
          cases hr2 : fill mode n y xs (s'.append y c) with
          | ok u s'' =>
            rw [hr2] at hq
            obtain ⟨h5, h6, h7, h8, h9, ⟨cs, h10, h11⟩, h12⟩ := hq
            have hlen : (s'.append y c).heap.length = s'.heap.length := by simp [St.append]
            have hss : s.heap.length ≤ s'.heap.length := h2.2.1.length_le
            refine ⟨h5, fun b d hb => h6 b d (h2.1 b d hb), ?_, by omega, fun b hb => h9 b (h2.2.2 b hb), ⟨c :: cs, ?_, ?_⟩, ?_⟩
            · intro d hd hne
              rw [h7 d (by omega) hne]
              simp only [St.append]
              rw [get_modify_ne _ _ _ _ (fun e => hne e.symm)]
              have hd' : s.heap[d]? = some s.heap[d] := List.getElem?_eq_getElem hd
              rw [hd', prefix_get h2.2.1 hd']
            · intro k ks hks
              have h13 := prefix_get h2.2.1 hks
              have h14 : (s'.append y c).heap[y]? = some ⟨k, ks ++ [c]⟩ := by
                simp only [St.append]
                rw [List.getElem?_modify, h13]
                simp
              have := h10 k (ks ++ [c]) h14
              simpa using this
            · simp only [List.map_cons, List.cons.injEq]
              exact ⟨h6 x c h3, h11⟩
            · intro b hb
              rcases h12 b hb with h13 | ⟨z, hz, hr⟩
              · rcases h4 b h13 with h14 | ⟨z, hz, hr⟩
                · exact .inl h14
                · exact .inr ⟨z, by simp only [List.mem_singleton] at hz; subst hz; exact List.mem_cons_self .., hr⟩
              · exact .inr ⟨z, List.mem_cons_of_mem _ hz, hr⟩
          | typeError s'' =>
            rw [hr2] at hq
            obtain ⟨z, hz, hs⟩ := hq
            exact ⟨z, List.mem_cons_of_mem _ hz, hs⟩
          | internal => rw [hr2] at hq; exact hq
          | outOfFuel => trivial
        | typeError s' => rw [hr] at hp; exact ⟨x, List.mem_cons_self .., hp⟩
        | internal => rw [hr] at hp; exact hp
        | outOfFuel => trivial

end Verif.Copy
