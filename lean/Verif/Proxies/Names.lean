import Verif.Proxies.Model
import Verif.Inputs.Props
/-
Helper lemmas: the names of variables are different.
-/
namespace Verif.Proxies
open Verif.Inputs (hex hexDigit uniq hex_inj hexDigit_inj)

/-- What the rest of a name may begin with. -/
def starts : List Name :=
  [['_'], ['@'], ['l', 'e', 'n'], ['s', 'i', 'g', 'n'], ['.'], ['d', 'i', 'g', 'i', 't', 's'], ['e', 'x', 'p'], ['i', 't', 'e', 'm', 's']]

/-- A name ends here, or goes on with one of these. -/
def Guard (t : Name) : Prop := t = [] ∨ ∃ s ∈ starts, s <+: t

def hexChars : List Char := "0123456789abcdef".toList

theorem hexDigit_mem (d : Nat) (hd : d < 16) : hexDigit d ∈ hexChars := by
  have : ∀ d < 16, hexDigit d ∈ hexChars := by decide
  exact this d hd

theorem hex_mem (n : Nat) : ∀ c ∈ hex n, c ∈ hexChars := by
  induction n using Nat.strong_induction_on with
  | _ n ih =>
    rw [hex]
    split
    · intro c hc
      simp only [List.mem_singleton] at hc
      subst hc
      exact hexDigit_mem n ‹_›
    · intro c hc
      rcases List.mem_append.mp hc with hc | hc
      · exact ih (n / 16) (by omega) c hc
      · simp only [List.mem_singleton] at hc
        subst hc
        exact hexDigit_mem _ (Nat.mod_lt _ (by omega))

def decChars : List Char := "0123456789".toList

theorem dec_mem (n : Nat) : ∀ c ∈ dec n, c ∈ decChars := by
  have hd : ∀ d < 10, hexDigit d ∈ decChars := by decide
  induction n using Nat.strong_induction_on with
  | _ n ih =>
    rw [dec]
    split
    · intro c hc
      simp only [List.mem_singleton] at hc
      subst hc
      exact hd n ‹_›
    · intro c hc
      rcases List.mem_append.mp hc with hc | hc
      · exact ih (n / 10) (by omega) c hc
      · simp only [List.mem_singleton] at hc
        subst hc
        exact hd _ (Nat.mod_lt _ (by omega))

theorem dec_ne (n : Nat) : dec n ≠ [] := by
  rw [dec]; split <;> simp

theorem dec_inj (a b : Nat) (h : dec a = dec b) : a = b := by
  induction a using Nat.strong_induction_on generalizing b with
  | _ a ih =>
    rw [dec.eq_def a, dec.eq_def b] at h
    by_cases ha : a < 10
    · by_cases hb : b < 10
      · simp only [ha, hb, if_true] at h
        exact hexDigit_inj a b (by omega) (by omega) (List.cons.inj h).1
      · simp only [ha, hb, if_true, if_false] at h
        have h2 := List.append_inj' (s₁ := []) h rfl
        exact absurd h2.1.symm (dec_ne _)
    · by_cases hb : b < 10
      · simp only [ha, hb, if_true, if_false] at h
        have h2 := List.append_inj' (s₂ := []) h rfl
        exact absurd h2.1 (dec_ne _)
      · simp only [ha, hb, if_false] at h
        have h2 := List.append_inj' h rfl
        have e1 := ih (a / 10) (by omega) (b / 10) h2.1
        have e2 := hexDigit_inj _ _ (by omega) (by omega) (List.cons.inj h2.2).1
        omega

/-- The rest of a name after a number cannot begin within the number. -/
theorem guard_hex (x t t' : Name) (hx : ∀ c ∈ x, c ∈ hexChars) (h : t = x ++ t') (hg : Guard t) (hg' : Guard t') : x = [] := by
  cases x with
  | nil => rfl
  | cons c x =>
    exfalso
    subst h
    rcases hg with hg | ⟨s, hs, hp⟩
    · simp at hg
    · have hc := hx c (by simp)
      simp only [starts, List.mem_cons, List.not_mem_nil, or_false] at hs
      rcases hs with rfl | rfl | rfl | rfl | rfl | rfl | rfl | rfl
      · obtain ⟨r, hr⟩ := hp
        have : c = '_' := (List.cons.inj hr).1.symm
        subst this; exact absurd hc (by decide)
      · obtain ⟨r, hr⟩ := hp
        have : c = '@' := (List.cons.inj hr).1.symm
        subst this; exact absurd hc (by decide)
      · obtain ⟨r, hr⟩ := hp
        have : c = 'l' := (List.cons.inj hr).1.symm
        subst this; exact absurd hc (by decide)
      · obtain ⟨r, hr⟩ := hp
        have : c = 's' := (List.cons.inj hr).1.symm
        subst this; exact absurd hc (by decide)
      · obtain ⟨r, hr⟩ := hp
        have : c = '.' := (List.cons.inj hr).1.symm
        subst this; exact absurd hc (by decide)
      · obtain ⟨r, hr⟩ := hp
        have h1 := (List.cons.inj hr).2
        cases x with
        | cons d x =>
          have : d = 'i' := (List.cons.inj h1).1.symm
          subst this
          exact absurd (hx 'i' (by simp)) (by decide)
        | nil =>
          replace h1 : t' = _ := h1.symm
          subst h1
          rcases hg' with hg' | ⟨s, hs, hp⟩
          · exact absurd hg' (by simp)
          · simp only [starts, List.mem_cons, List.not_mem_nil, or_false] at hs
            rcases hs with rfl | rfl | rfl | rfl | rfl | rfl | rfl | rfl <;>
              simp [List.cons_prefix_cons] at hp
      · obtain ⟨r, hr⟩ := hp
        have h1 := (List.cons.inj hr).2
        cases x with
        | cons d x =>
          have : d = 'x' := (List.cons.inj h1).1.symm
          subst this
          exact absurd (hx 'x' (by simp)) (by decide)
        | nil =>
          replace h1 : t' = _ := h1.symm
          subst h1
          rcases hg' with hg' | ⟨s, hs, hp⟩
          · exact absurd hg' (by simp)
          · simp only [starts, List.mem_cons, List.not_mem_nil, or_false] at hs
            rcases hs with rfl | rfl | rfl | rfl | rfl | rfl | rfl | rfl <;>
              simp [List.cons_prefix_cons] at hp
      · obtain ⟨r, hr⟩ := hp
        have : c = 'i' := (List.cons.inj hr).1.symm
        subst this; exact absurd hc (by decide)

theorem digits_split (a b t t' : Name) (ha : ∀ c ∈ a, c ∈ hexChars) (hb : ∀ c ∈ b, c ∈ hexChars) (h : a ++ t = b ++ t') (hg : Guard t)
    (hg' : Guard t') : a = b := by
  rcases List.append_eq_append_iff.mp h with ⟨x, hx1, hx2⟩ | ⟨x, hx1, hx2⟩
  · have := guard_hex x t t' (fun c hc => hb c (by rw [hx1]; simp [hc])) hx2 hg hg'
    subst this; simpa using hx1.symm
  · have := guard_hex x t' t (fun c hc => ha c (by rw [hx1]; simp [hc])) hx2 hg' hg
    subst this; simpa using hx1

theorem hex_split (u w : Nat) (t t' : Name) (h : hex u ++ t = hex w ++ t') (hg : Guard t) (hg' : Guard t') : u = w :=
  hex_inj _ _ (digits_split _ _ t t' (hex_mem u) (hex_mem w) h hg hg')

theorem dec_split (u w : Nat) (t t' : Name) (h : dec u ++ t = dec w ++ t') (hg : Guard t) (hg' : Guard t') : u = w := by
  have sub : ∀ c ∈ decChars, c ∈ hexChars := by decide
  exact dec_inj _ _ (digits_split _ _ t t' (fun c hc => sub c (dec_mem u c hc)) (fun c hc => sub c (dec_mem w c hc)) h hg hg')

/-- The two texts differ at a place where both have a character. -/
def Incomparable (a b : Name) : Prop := ¬ a <+: b ∧ ¬ b <+: a

instance (a b : Name) : Decidable (Incomparable a b) := by unfold Incomparable; infer_instance

theorem incomparable_ne {a b : Name} (h : Incomparable a b) (t t' : Name) : a ++ t ≠ b ++ t' := by
  intro he
  rcases List.append_eq_append_iff.mp he with ⟨x, hx1, _⟩ | ⟨x, hx1, _⟩
  · exact h.1 ⟨x, hx1.symm⟩
  · exact h.2 ⟨x, hx1.symm⟩

/-- The suffixes of two parts keep their names apart: with fresh numbers they may be the same. -/
def Apart (a : Name) (fa : Bool) (b : Name) (fb : Bool) : Prop :=
  Incomparable a b ∨ (a = b ∧ fa = true ∧ fb = true) ∨
    (∃ pre i j, i ≠ j ∧ a = pre ++ dec i ∧ b = pre ++ dec j ∧ fa = false ∧ fb = false)

/-- The suffix, with the number, begins with a start. -/
def Begins (suffix : Name) (fresh : Bool) : Prop := (suffix = [] ∧ fresh = true) ∨ ∃ s ∈ starts, s <+: suffix

mutual
/-- All suffixes keep the names apart. -/
def Fine : Shape → Prop
  | .leaf _ => True
  | .node ps => FineParts ps
def FineParts : Parts → Prop
  | .nil => True
  | .fork rest => FineParts rest
  | .cons suffix fresh s rest => Begins suffix fresh ∧ Fine s ∧ ApartAll suffix fresh rest ∧ FineParts rest
def ApartAll (a : Name) (fa : Bool) : Parts → Prop
  | .nil => True
  | .fork rest => ApartAll a fa rest
  | .cons b fb _ rest => Apart a fa b fb ∧ ApartAll a fa rest
end

/-- The text after the name of the value for one part. -/
def stem (suffix : Name) (fresh : Bool) (u : Nat) : Name := if fresh then suffix ++ '_' :: hex u else suffix

theorem stem_guard {suffix : Name} {fresh : Bool} (h : Begins suffix fresh) (u : Nat) (t : Name) : Guard (stem suffix fresh u ++ t) := by
  rcases h with ⟨rfl, rfl⟩ | ⟨s, hs, hp⟩
  · exact Or.inr ⟨['_'], by decide, ⟨hex u ++ t, by simp [stem]⟩⟩
  · refine Or.inr ⟨s, hs, ?_⟩
    obtain ⟨r, rfl⟩ := hp
    unfold stem
    split
    · exact ⟨r ++ '_' :: hex u ++ t, by simp⟩
    · exact ⟨r ++ t, by simp⟩

theorem apart_ne {a b : Name} {fa fb : Bool} (h : Apart a fa b fb) {u w : Nat} (huw : fa = true → fb = true → u ≠ w) {t t' : Name}
    (hg : Guard t) (hg' : Guard t') : stem a fa u ++ t ≠ stem b fb w ++ t' := by
  rcases h with h | ⟨rfl, rfl, rfl⟩ | ⟨pre, i, j, hij, rfl, rfl, rfl, rfl⟩
  · have : ∀ (c : Name) (f : Bool) (u : Nat), ∃ r, stem c f u = c ++ r := by
      intro c f u
      unfold stem
      split
      · exact ⟨_, rfl⟩
      · exact ⟨[], by simp⟩
    obtain ⟨r, hr⟩ := this a fa u
    obtain ⟨r', hr'⟩ := this b fb w
    rw [hr, hr', List.append_assoc, List.append_assoc]
    exact incomparable_ne h _ _
  · intro he
    simp only [stem, if_true, List.append_assoc, List.cons_append] at he
    have := (List.cons.inj (List.append_cancel_left he)).2
    exact huw rfl rfl (hex_split u w t t' this hg hg')
  · intro he
    simp only [stem, Bool.false_eq_true, if_false, List.append_assoc] at he
    exact hij (dec_split i j t t' (List.append_cancel_left he) hg hg')

mutual
theorem tails_mono (s : Shape) (n : Nat) : n ≤ (tails s n).2 := by
  cases s with
  | leaf => simp [tails]
  | node ps => simpa [tails] using partTails_mono ps n
theorem partTails_mono (ps : Parts) (n : Nat) : n ≤ (partTails ps n).2 := by
  cases ps with
  | nil => simp [partTails]
  | fork rest =>
    have := partTails_mono rest (n + 1)
    simp only [partTails]; omega
  | cons suffix fresh s rest =>
    simp only [partTails, uniq]
    have h1 := tails_mono s (if fresh then n + 1 else n)
    have h2 := partTails_mono rest (tails s (if fresh then n + 1 else n)).2
    split at h1 <;> simp_all <;> omega
end

mutual
theorem tails_guard (s : Shape) (n : Nat) (h : Fine s) : ∀ v ∈ (tails s n).1, Guard v.1 := by
  cases s with
  | leaf s => intro v hv; simp only [tails, List.mem_singleton] at hv; subst hv; exact Or.inl rfl
  | node ps => simp only [tails]; exact partTails_guard ps n h
theorem partTails_guard (ps : Parts) (n : Nat) (h : FineParts ps) : ∀ v ∈ (partTails ps n).1, Guard v.1 := by
  cases ps with
  | nil => intro v hv; simp [partTails] at hv
  | fork rest => simp only [partTails]; exact partTails_guard rest (n + 1) h
  | cons suffix fresh s rest =>
    obtain ⟨hb, _, _, hr⟩ := h
    intro v hv
    simp only [partTails, List.mem_append, List.mem_map] at hv
    rcases hv with ⟨w, hw, rfl⟩ | hv
    · exact stem_guard hb (n + 1) w.1
    · exact partTails_guard rest _ hr v hv
end

theorem partTails_apart (a : Name) (fa : Bool) (u : Nat) (t : Name) (hg : Guard t) (ps : Parts) (n : Nat) (hu : u ≤ n)
    (hf : FineParts ps) (h : ApartAll a fa ps) : ∀ v ∈ (partTails ps n).1, stem a fa u ++ t ≠ v.1 := by
  cases ps with
  | nil => intro v hv; simp [partTails] at hv
  | fork rest =>
    simp only [partTails]
    exact partTails_apart a fa u t hg rest (n + 1) (by omega) hf h
  | cons suffix fresh s rest =>
    obtain ⟨_, hs, _, hr⟩ := hf
    intro v hv
    simp only [partTails, uniq, List.mem_append, List.mem_map] at hv
    rcases hv with ⟨w, hw, rfl⟩ | hv
    · exact apart_ne h.1 (w := n + 1) (fun _ _ => by omega) hg (tails_guard s _ hs w hw)
    · refine partTails_apart a fa u t hg rest _ ?_ hr h.2 v hv
      have := tails_mono s (if fresh then n + 1 else n)
      split at this <;> simp_all <;> omega

mutual
theorem tails_nodup (s : Shape) (n : Nat) (h : Fine s) : ((tails s n).1.map Prod.fst).Nodup := by
  cases s with
  | leaf s => simp [tails]
  | node ps => simp only [tails]; exact partTails_nodup ps n h
theorem partTails_nodup (ps : Parts) (n : Nat) (h : FineParts ps) : ((partTails ps n).1.map Prod.fst).Nodup := by
  cases ps with
  | nil => simp [partTails]
  | fork rest => simp only [partTails]; exact partTails_nodup rest (n + 1) h
  | cons suffix fresh s rest =>
    obtain ⟨hb, hs, ha, hr⟩ := h
    simp only [partTails, uniq, List.map_append, List.map_map]
    refine List.nodup_append.mpr ⟨?_, partTails_nodup rest _ hr, ?_⟩
    · have h1 := tails_nodup s (if fresh then n + 1 else n) hs
      have : (Prod.fst ∘ fun v : Var => ((if fresh = true then suffix ++ '_' :: hex (n + 1) else suffix) ++ v.1, v.2)) =
          (fun x : Name => (if fresh = true then suffix ++ '_' :: hex (n + 1) else suffix) ++ x) ∘ Prod.fst := rfl
      rw [this, ← List.map_map]
      exact h1.map fun x y e => List.append_cancel_left e
    · intro x hx y hy
      obtain ⟨v, hv, rfl⟩ := List.mem_map.mp hx
      obtain ⟨w, hw, rfl⟩ := List.mem_map.mp hy
      have hm := tails_mono s (if fresh then n + 1 else n)
      by_cases hfr : fresh = true
      · simp only [hfr, if_true] at hv hw hm ⊢
        have := partTails_apart suffix true (n + 1) v.1 (tails_guard s _ hs v hv) rest _ (by omega) hr (hfr ▸ ha) w hw
        simpa [stem] using this
      · simp only [hfr, Bool.false_eq_true, if_false] at hv hw hm ⊢
        have hf : fresh = false := by simpa using hfr
        have := partTails_apart suffix false n v.1 (tails_guard s _ hs v hv) rest _ (by omega) hr (hf ▸ ha) w hw
        simpa [stem] using this
end

/-! ### The makers -/

/-- Every part has a proper suffix and a fine shape, and every two are apart. -/
theorem fineParts_of (l : List (Name × Bool × Shape)) (hb : ∀ p ∈ l, Begins p.1 p.2.1 ∧ Fine p.2.2)
    (ha : l.Pairwise fun p q => Apart p.1 p.2.1 q.1 q.2.1) : FineParts (parts l) := by
  have all : ∀ (a : Name) (fa : Bool) (l : List (Name × Bool × Shape)), (∀ q ∈ l, Apart a fa q.1 q.2.1) → ApartAll a fa (parts l) := by
    intro a fa l
    induction l with
    | nil => intro _; trivial
    | cons q l ih => exact fun h => ⟨h q (by simp), ih fun r hr => h r (List.mem_cons_of_mem _ hr)⟩
  induction l with
  | nil => trivial
  | cons p l ih =>
    obtain ⟨h1, h2⟩ := List.pairwise_cons.mp ha
    exact ⟨(hb p (by simp)).1, (hb p (by simp)).2, all _ _ l h1, ih (fun q hq => hb q (List.mem_cons_of_mem _ hq)) h2⟩

/-- Suffixes that can be checked: they begin well and are incomparable. -/
def checked (l : List (Name × Bool)) : Bool :=
  l.all (fun p => starts.any (·.isPrefixOf p.1)) && decide (l.Pairwise fun p q => Incomparable p.1 q.1)

theorem fine_checked (l : List (Name × Bool × Shape)) (hc : checked (l.map fun p => (p.1, p.2.1)) = true) (hs : ∀ p ∈ l, Fine p.2.2) :
    Fine (.node (parts l)) := by
  simp only [checked, Bool.and_eq_true, List.all_eq_true, decide_eq_true_eq, List.mem_map, List.any_eq_true] at hc
  obtain ⟨h1, h2⟩ := hc
  refine fineParts_of l (fun p hp => ⟨?_, hs p hp⟩) ?_
  · obtain ⟨s, hs, hpre⟩ := h1 _ ⟨p, hp, rfl⟩
    exact Or.inr ⟨s, hs, List.isPrefixOf_iff_prefix.mp hpre⟩
  · rw [List.pairwise_map] at h2
    exact h2.imp fun h => Or.inl h

theorem fine_leaf (s : Sort') : Fine (.leaf s) := trivial

theorem fine_mapAndLen : Fine mapAndLen :=
  fine_checked _ (by decide) (by simp [Fine])

theorem fine_intTuple (n : Nat) : Fine (intTuple n) := by
  refine fineParts_of _ ?_ ?_
  · intro p hp
    rcases List.mem_cons.mp hp with rfl | hp
    · exact ⟨Or.inr ⟨['l', 'e', 'n'], by decide, List.prefix_refl _⟩, trivial⟩
    · obtain ⟨i, _, rfl⟩ := List.mem_map.mp hp
      exact ⟨Or.inr ⟨['@'], by decide, ⟨dec i, rfl⟩⟩, trivial⟩
  · refine List.pairwise_cons.mpr ⟨?_, ?_⟩
    · intro q hq
      obtain ⟨i, _, rfl⟩ := List.mem_map.mp hq
      refine Or.inl ⟨?_, ?_⟩
      · intro ⟨r, hr⟩; exact absurd (List.cons.inj hr).1 (by decide)
      · intro ⟨r, hr⟩; exact absurd (List.cons.inj hr).1 (by decide)
    · rw [List.pairwise_map]
      refine List.nodup_range.imp fun {i j} hij => ?_
      exact Or.inr (Or.inr ⟨['@'], i, j, hij, rfl, rfl, rfl, rfl⟩)

theorem fine_fresh (s : Shape) (h : Fine s) : Fine (.node (parts [([], true, s)])) :=
  ⟨Or.inl ⟨rfl, rfl⟩, h, trivial, trivial⟩

theorem fine_unionShape (n : Nat) (s : Shape) (h : Fine s) : Fine (unionShape n s) := by
  induction n with
  | zero => exact fine_fresh s h
  | succ n ih =>
    show FineParts (.fork (match unionShape n s with | .node ps => ps | .leaf _ => .nil))
    cases hu : unionShape n s with
    | leaf s => trivial
    | node ps => rw [hu] at ih; exact ih

theorem fine_optional (b : Bool) (s : Shape) (h : Fine s) : Fine (optionalShape b s) := by
  refine fine_unionShape 1 _ ?_
  cases b
  · exact trivial
  · exact h

mutual
theorem fine_shape (t : Thing) (h : t.KeysApart) : Fine (shape t) := by
  cases t with
  | none => simp only [shape]; trivial
  | bool => simp only [shape]; trivial
  | int => simp only [shape]; trivial
  | float => simp only [shape]; trivial
  | complex => simp only [shape]; exact fine_checked _ (by decide) (by simp [Fine])
  | fraction => simp only [shape]; exact fine_checked _ (by decide) (by simp [Fine])
  | range => simp only [shape]; exact fine_checked _ (by decide) (by simp [Fine])
  | slice a b c =>
    simp only [shape]
    refine fine_checked _ (by simp only [List.map_cons, List.map_nil]; decide) ?_
    simp only [List.mem_cons, List.not_mem_nil, or_false, forall_eq_or_imp, forall_eq]
    exact ⟨fine_optional _ _ trivial, fine_optional _ _ trivial, fine_optional _ _ trivial⟩
  | str n => simp only [shape]; exact fine_intTuple n
  | bytes n => simp only [shape]; exact fine_intTuple n
  | stringIO n nl =>
    simp only [shape]
    exact ⟨Or.inl ⟨rfl, rfl⟩, fine_intTuple n, ⟨Or.inr (Or.inl ⟨rfl, rfl, rfl⟩), trivial⟩, Or.inl ⟨rfl, rfl⟩, fine_optional _ _ (fine_intTuple _),
      trivial, trivial⟩
  | decimal n =>
    simp only [shape]
    refine fine_checked _ (by simp only [List.map_cons, List.map_nil]; decide) ?_
    simp only [List.mem_cons, List.not_mem_nil, or_false, forall_eq_or_imp, forall_eq]
    exact ⟨trivial, fine_intTuple n, trivial⟩
  | timedelta => simp only [shape]; exact fine_checked _ (by decide) (by simp [Fine])
  | date => simp only [shape]; exact fine_checked _ (by decide) (by simp [Fine])
  | time =>
    simp only [shape]
    refine fine_checked _ (by simp only [List.map_cons, List.map_nil]; decide) ?_
    simp only [List.mem_cons, List.not_mem_nil, or_false, forall_eq_or_imp, forall_eq]
    exact ⟨trivial, trivial, trivial, trivial, trivial, fine_optional _ _ trivial⟩
  | datetime =>
    simp only [shape]
    refine fine_checked _ (by simp only [List.map_cons, List.map_nil]; decide) ?_
    simp only [List.mem_cons, List.not_mem_nil, or_false, forall_eq_or_imp, forall_eq]
    exact ⟨trivial, trivial, trivial, trivial, trivial, trivial, fine_optional _ _ trivial⟩
  | list => simp only [shape]; exact fine_mapAndLen
  | dict => simp only [shape]; exact fine_mapAndLen
  | set => simp only [shape]; exact fine_fresh _ fine_mapAndLen
  | heapDict => simp only [shape]; exact fine_checked _ (by decide) (by simp only [List.mem_cons, List.not_mem_nil, or_false, forall_eq]; exact fine_mapAndLen)
  | union forks t => simp only [shape]; exact fine_unionShape forks _ (fine_shape t h)
  | tuple ts => simp only [shape]; exact (fine_tuple 0 ts h).1
  | record keys ts => simp only [shape]; exact (fine_record keys ts h.1 h.2).1
theorem fine_tuple (i : Nat) (ts : List Thing) (h : Things.KeysApart ts) :
    FineParts (tupleParts i ts) ∧ ∀ j < i, ApartAll ("_at_".toList ++ dec j) false (tupleParts i ts) := by
  cases ts with
  | nil => simp only [tupleParts]; exact ⟨trivial, fun _ _ => trivial⟩
  | cons t ts =>
    simp only [tupleParts]
    have ih := fine_tuple (i + 1) ts h.2
    refine ⟨⟨Or.inr ⟨['_'], by decide, ⟨_, rfl⟩⟩, fine_shape t h.1, ih.2 i (by omega), ih.1⟩, fun j hj => ⟨?_, ih.2 j (by omega)⟩⟩
    exact Or.inr (Or.inr ⟨"_at_".toList, j, i, by omega, rfl, rfl, rfl, rfl⟩)
theorem fine_record (keys : List Name) (ts : List Thing) (hk : keys.Pairwise fun a b => ¬ a <+: b ∧ ¬ b <+: a) (h : Things.KeysApart ts) :
    FineParts (recordParts keys ts) ∧ ∀ k, (∀ k' ∈ keys, ¬ k <+: k' ∧ ¬ k' <+: k) → ApartAll ('.' :: k) false (recordParts keys ts) := by
  cases ts with
  | nil => cases keys <;> simp only [recordParts] <;> exact ⟨trivial, fun _ _ => trivial⟩
  | cons t ts =>
    cases keys with
    | nil => simp only [recordParts]; exact ⟨trivial, fun _ _ => trivial⟩
    | cons k keys =>
      simp only [recordParts]
      obtain ⟨h1, h2⟩ := List.pairwise_cons.mp hk
      have ih := fine_record keys ts h2 h.2
      refine ⟨⟨Or.inr ⟨['.'], by decide, ⟨k, rfl⟩⟩, fine_shape t h.1, ih.2 k h1, ih.1⟩, fun k' hk' => ⟨?_, ih.2 k' fun q hq => hk' q (List.mem_cons_of_mem _ hq)⟩⟩
      have := hk' k (by simp)
      exact Or.inl ⟨fun hp => this.1 (List.cons_prefix_cons.mp hp).2, fun hp => this.2 (List.cons_prefix_cons.mp hp).2⟩
end

theorem inputVars_mono (ps : List (Name × Thing)) (n : Nat) : n ≤ (inputVars ps n).2 := by
  induction ps generalizing n with
  | nil => simp [inputVars]
  | cons p ps ih =>
    obtain ⟨p, t⟩ := p
    simp only [inputVars, uniq]
    have h1 := tails_mono (shape t) (n + 1)
    have h2 := ih (tails (shape t) (n + 1)).2
    omega

theorem inputVars_from (ps : List (Name × Thing)) (hk : ∀ p ∈ ps, p.2.KeysApart) (n : Nat) :
    ∀ v ∈ (inputVars ps n).1, ∃ p ∈ ps, ∃ u t, n < u ∧ Guard t ∧ v.1 = p.1 ++ '_' :: hex u ++ t := by
  induction ps generalizing n with
  | nil => simp [inputVars]
  | cons p ps ih =>
    obtain ⟨p, t⟩ := p
    intro v hv
    simp only [inputVars, uniq, List.mem_append, List.mem_map] at hv
    rcases hv with ⟨w, hw, rfl⟩ | hv
    · exact ⟨(p, t), List.mem_cons_self .., n + 1, w.1, by omega, tails_guard _ _ (fine_shape t (hk (p, t) (List.mem_cons_self ..))) w hw, by simp⟩
    · obtain ⟨q, hq, u, t', hu, hg, he⟩ := ih (fun q hq => hk q (List.mem_cons_of_mem _ hq)) _ v hv
      have := tails_mono (shape t) (n + 1)
      exact ⟨q, List.mem_cons_of_mem _ hq, u, t', by omega, hg, he⟩

/-- The names of all variables are different. -/
theorem inputVars_nodup (ps : List (Name × Thing)) (hk : ∀ p ∈ ps, p.2.KeysApart)
    (hp : ps.Pairwise fun p q => p.1 = q.1 ∨ (¬ p.1 ++ ['_'] <+: q.1 ∧ ¬ q.1 ++ ['_'] <+: p.1)) (n : Nat) :
    ((inputVars ps n).1.map Prod.fst).Nodup := by
  induction ps generalizing n with
  | nil => simp [inputVars]
  | cons p ps ih =>
    obtain ⟨p, t⟩ := p
    obtain ⟨h1, h2⟩ := List.pairwise_cons.mp hp
    have hfine := fine_shape t (hk _ (List.mem_cons_self ..))
    simp only [inputVars, uniq, List.map_append, List.map_map]
    refine List.nodup_append.mpr ⟨?_, ih (fun q hq => hk q (List.mem_cons_of_mem _ hq)) h2 _, ?_⟩
    · have : (Prod.fst ∘ fun v : Var => (p ++ '_' :: hex (n + 1) ++ v.1, v.2)) = (fun x : Name => p ++ '_' :: hex (n + 1) ++ x) ∘ Prod.fst := rfl
      rw [this, ← List.map_map]
      exact (tails_nodup _ (n + 1) hfine).map fun x y e => List.append_cancel_left e
    · intro x hx y hy
      obtain ⟨v, hv, rfl⟩ := List.mem_map.mp hx
      obtain ⟨w, hw, rfl⟩ := List.mem_map.mp hy
      have hg := tails_guard _ _ hfine v hv
      obtain ⟨q, hq, u, t', hu, hg', he⟩ := inputVars_from ps (fun q hq => hk q (List.mem_cons_of_mem _ hq)) _ w hw
      have hm := tails_mono (shape t) (n + 1)
      intro hc
      simp only [Function.comp] at hc
      rw [he] at hc
      rcases h1 q hq with hpq | ⟨hn1, hn2⟩
      · have hpq : p = q.1 := hpq
        subst hpq
        simp only [List.append_assoc, List.cons_append] at hc
        have := hex_split _ _ _ _ (List.cons.inj (List.append_cancel_left hc)).2 hg hg'
        omega
      · have key : ∀ (a b r r' : Name), ¬ a ++ ['_'] <+: b → a ≠ b → a ++ '_' :: r = b ++ '_' :: r' → ∃ x, a = b ++ x ∧ x ≠ [] := by
          intro a b r r' hn hne h
          rcases List.append_eq_append_iff.mp h with ⟨x, hx1, hx2⟩ | ⟨x, hx1, hx2⟩
          · cases x with
            | nil => exact absurd (by simpa using hx1.symm) hne
            | cons c x =>
              have : c = '_' := (List.cons.inj hx2).1.symm
              subst this
              exact absurd ⟨x, by rw [hx1]; simp⟩ hn
          · refine ⟨x, hx1, ?_⟩
            rintro rfl
            exact hne (by simpa using hx1)
        simp only [List.append_assoc, List.cons_append] at hc
        by_cases hpq : p = q.1
        · subst hpq
          have := hex_split _ _ _ _ (List.cons.inj (List.append_cancel_left hc)).2 hg hg'
          omega
        · obtain ⟨x, hx, hxn⟩ := key _ _ _ _ hn1 hpq hc
          obtain ⟨y, hy, hyn⟩ := key _ _ _ _ hn2 (Ne.symm hpq) hc.symm
          rw [hy] at hx
          have := congrArg List.length hx
          simp only [List.length_append] at this
          have h3 : x.length ≠ 0 := by simpa using hxn
          omega

/-- Variables with different names can take any values. -/
theorem free_of_nodup (vs : List Var) (h : vs.Nodup) : Free vs := by
  induction vs with
  | nil => intro values hl; exact ⟨fun _ => 0, by simpa [eq_comm] using hl⟩
  | cons v vs ih =>
    obtain ⟨hv, hn⟩ := List.nodup_cons.mp h
    intro values hl
    cases values with
    | nil => simp at hl
    | cons x xs =>
      obtain ⟨I, hI⟩ := ih hn xs (by simpa using hl)
      refine ⟨fun w => if w = v then x else I w, ?_⟩
      simp only [List.map_cons, if_true, List.cons.injEq, true_and]
      rw [← hI]
      refine List.map_congr_left fun w hw => ?_
      have : w ≠ v := fun e => hv (e ▸ hw)
      simp [this]

theorem not_free (vs : List Var) (i j : Nat) (hij : i < j) (v : Var) (hi : vs[i]? = some v) (hj : vs[j]? = some v) : ¬ Free vs := by
  intro h
  obtain ⟨I, hI⟩ := h ((List.range vs.length).map Int.ofNat) (by simp)
  have hjl : j < vs.length := by
    rcases Nat.lt_or_ge j vs.length with h | h
    · exact h
    · rw [List.getElem?_eq_none h] at hj; cases hj
  have e1 := congrArg (fun l : List Int => l[i]?) hI
  have e2 := congrArg (fun l : List Int => l[j]?) hI
  simp only [List.getElem?_map, hi, hj, Option.map_some, List.getElem?_range (Nat.lt_trans hij hjl), List.getElem?_range hjl,
    Option.some.injEq] at e1 e2
  rw [e1] at e2
  have := Int.ofNat.inj e2
  omega

end Verif.Proxies
