import Verif.Copy.Lemmas

namespace Verif.Copy

variable {H : List Obj} {mode : Mode}

/-! ## The copy has the shape of the original -/

theorem map_get {s : St} {xs ys : List Nat} (h : xs.map s.img = ys.map some) (i : Nat) :
    (xs[i]? = none ∧ ys[i]? = none) ∨ ∃ x y, xs[i]? = some x ∧ ys[i]? = some y ∧ s.img x = some y := by
  have hi : (xs.map s.img)[i]? = (ys.map some)[i]? := by rw [h]
  rw [List.getElem?_map, List.getElem?_map] at hi
  cases hx : xs[i]? with
  | none =>
    rw [hx] at hi
    cases hy : ys[i]? with
    | none => exact .inl ⟨rfl, rfl⟩
    | some y => rw [hy] at hi; simp at hi
  | some x =>
    rw [hx] at hi
    cases hy : ys[i]? with
    | none => rw [hy] at hi; simp at hi
    | some y => rw [hy] at hi; exact .inr ⟨x, y, rfl, rfl, by simpa using hi⟩

theorem good_of_inv {s : St} (h : Inv H mode [] s) {a c : Nat} (ha : s.img a = some c) : Good H mode s a c := by
  rcases h.good a c ha with hg | hg
  · cases hg
  · exact hg

theorem resolve_copy {s : St} (h : Inv H mode [] s) (p : List Nat) : ∀ {a c : Nat}, s.img a = some c →
    (resolve H a p = none ∧ resolve s.heap c p = none) ∨
      ∃ b d, resolve H a p = some b ∧ resolve s.heap c p = some d ∧ s.img b = some d := by
  induction p with
  | nil => intro a c ha; exact .inr ⟨a, c, rfl, rfl, ha⟩
  | cons i p ih =>
    intro a c ha
    obtain ⟨o, oc, h1, h2, h3, h4, _⟩ := good_of_inv h ha
    simp only [resolve, h1, h2]
    rcases map_get h4 i with ⟨h5, h6⟩ | ⟨x, y, h5, h6, h7⟩
    · simp [h5, h6]
    · simp only [h5, h6]; exact ih h7

theorem img_inj {s : St} (h : Inv H mode [] s) {a b c : Nat} (ha : s.img a = some c) (hb : s.img b = some c) : a = b := by
  rcases Nat.lt_or_ge c H.length with hc | hc
  · obtain ⟨_, _, _, _, _, _, h5, _⟩ := good_of_inv h ha
    obtain ⟨_, _, _, _, _, _, h5', _⟩ := good_of_inv h hb
    rw [← (h5 hc).1, ← (h5' hc).1]
  · exact h.inj a b c ha hb hc

theorem see_copy {s : St} (h : Inv H mode [] s) {a c : Nat} (ha : s.img a = some c) (p : List Nat) :
    see s.heap c p = (see H a p).map (fun x => (x.1.copied mode, x.2)) := by
  unfold see
  rcases resolve_copy h p ha with ⟨h1, h2⟩ | ⟨b, d, h1, h2, h3⟩
  · rw [h1, h2]; rfl
  · rw [h1, h2]
    obtain ⟨o, oc, h4, h5, h6, h7, _⟩ := good_of_inv h h3
    simp only [h4, h5, Option.map_some, h6]
    have := congrArg List.length h7
    simp only [List.length_map] at this
    rw [this]

/-! ## Changes -/

theorem resolve_append {h : List Obj} (p : List Nat) : ∀ {a b : Nat} (q : List Nat), resolve h a p = some b →
    resolve h a (p ++ q) = resolve h b q := by
  induction p with
  | nil => intro a b q hp; cases hp; rfl
  | cons i p ih =>
    intro a b q hp
    simp only [resolve, List.cons_append] at hp ⊢
    cases ho : h[a]? with
    | none => rw [ho] at hp; cases hp
    | some o =>
      rw [ho] at hp
      simp only at hp ⊢
      cases hk : o.kids[i]? with
      | none => rw [hk] at hp; cases hp
      | some k => rw [hk] at hp; simp only at hp ⊢; exact ih q hp

theorem reach_trans {h : List Obj} {a b c : Nat} (h1 : Reach h a b) (h2 : Reach h b c) : Reach h a c := by
  obtain ⟨p, hp⟩ := h1
  obtain ⟨q, hq⟩ := h2
  exact ⟨p ++ q, by rw [resolve_append p q hp, hq]⟩

theorem reach_step {h : List Obj} {a b k : Nat} {o : Obj} (h1 : Reach h a b) (ho : h[b]? = some o) (hk : k ∈ o.kids) :
    Reach h a k := reach_trans h1 (reach_kid ho hk (reach_refl h k))

/-- A set that contains the root and is closed under references contains what can be reached. -/
theorem reach_closed {h : List Obj} (S : Nat → Prop) (hS : ∀ b o, S b → h[b]? = some o → ∀ k ∈ o.kids, S k) :
    ∀ (p : List Nat) {a b : Nat}, S a → resolve h a p = some b → S b := by
  intro p
  induction p with
  | nil => intro a b ha hp; cases hp; exact ha
  | cons i p ih =>
    intro a b ha hp
    simp only [resolve] at hp
    cases ho : h[a]? with
    | none => rw [ho] at hp; cases hp
    | some o =>
      rw [ho] at hp
      simp only at hp
      cases hk : o.kids[i]? with
      | none => rw [hk] at hp; cases hp
      | some k =>
        rw [hk] at hp
        simp only at hp
        exact ih (hS a o ha ho k (List.mem_of_getElem? hk)) hp

theorem resolve_same {h g : List Obj} (S : Nat → Prop) (hS : ∀ b o, S b → h[b]? = some o → ∀ k ∈ o.kids, S k)
    (hg : ∀ b, S b → g[b]? = h[b]?) : ∀ (p : List Nat) {a : Nat}, S a → resolve g a p = resolve h a p := by
  intro p
  induction p with
  | nil => intro a _; rfl
  | cons i p ih =>
    intro a ha
    simp only [resolve, hg a ha]
    cases ho : h[a]? with
    | none => rfl
    | some o =>
      simp only
      cases hk : o.kids[i]? with
      | none => rfl
      | some k => exact ih (hS a o ha ho k (List.mem_of_getElem? hk))

theorem sources_spec (root : Nat) (src : List Source) : ∀ (g : List Obj),
    g <+: (sources root src g).2 ∧
    (∀ b, g.length ≤ b → ∀ o, (sources root src g).2[b]? = some o → o.kids = []) ∧
    ∀ (T : Nat → Prop), T root → (∀ b o, T b → g[b]? = some o → ∀ k ∈ o.kids, T k) →
      (∀ b, g.length ≤ b → b < (sources root src g).2.length → T b) → ∀ k ∈ (sources root src g).1, T k := by
  induction src with
  | nil =>
    intro g
    refine ⟨List.prefix_refl _, ?_, by simp [sources]⟩
    intro b hb o ho
    simp only [sources] at ho
    rw [List.getElem?_eq_none hb] at ho; cases ho
  | cons x src ih =>
    intro g
    cases x with
    | path p =>
      simp only [sources]
      cases hp : resolve g root p with
      | none => exact ih g
      | some b =>
        refine ⟨(ih g).1, (ih g).2.1, ?_⟩
        intro T hr hc hf k hk
        rcases List.mem_cons.1 hk with rfl | hk
        · exact reach_closed T hc p hr hp
        · exact (ih g).2.2 T hr hc hf k hk
    | new v =>
      simp only [sources]
      obtain ⟨h1, h2, h3⟩ := ih (g ++ [⟨.atom v, []⟩])
      refine ⟨(List.prefix_append _ _).trans h1, ?_, ?_⟩
      · intro b hb o ho
        rcases Nat.lt_or_ge b (g ++ [(⟨.atom v, []⟩ : Obj)]).length with hlt | hge
        · have hb' : b = g.length := by simp at hlt; omega
          subst hb'
          have := prefix_get h1 (i := g.length) (x := (⟨.atom v, []⟩ : Obj)) (by simp)
          rw [this] at ho; cases ho; rfl
        · exact h2 b hge o ho
      · intro T hr hc hf k hk
        rcases List.mem_cons.1 hk with rfl | hk
        · refine hf _ (Nat.le_refl _) ?_
          have := h1.length_le
          simp at this; omega
        · refine h3 T hr ?_ (fun b hb => hf b (by simp at hb; omega)) k hk
          intro b o hb ho
          rcases Nat.lt_or_ge b g.length with hlt | hge
          · rw [List.getElem?_append_left hlt] at ho; exact hc b o hb ho
          · rw [List.getElem?_append_right hge] at ho
            cases hb' : b - g.length with
            | zero => rw [hb'] at ho; simp at ho; subst ho; intro k hk; cases hk
            | succ i => rw [hb'] at ho; simp at ho

/-- Two roots from which no mutable object can be reached by both. -/
structure Apart (h : List Obj) (r r' : Nat) : Prop where
  small : ∀ b, Reach h r b → b < h.length
  small' : ∀ b, Reach h r' b → b < h.length
  apart : ∀ b o, Reach h r' b → Reach h r b → h[b]? = some o → o.kind.mutable = false

theorem Apart.symm {h : List Obj} {r r' : Nat} (ha : Apart h r r') : Apart h r' r :=
  ⟨ha.small', ha.small, fun b o h1 h2 => ha.apart b o h2 h1⟩

/-- A change through one root is not seen through the other. -/
theorem apart_write {h : List Obj} {r r' : Nat} (ha : Apart h r r') (path : List Nat) (src : List Source) :
    Apart (write r' path src h) r r' ∧ (∀ b, Reach h r b → (write r' path src h)[b]? = h[b]?) := by
  unfold write
  cases hp : resolve h r' path with
  | none => exact ⟨ha, fun _ _ => rfl⟩
  | some b =>
    simp only
    cases ho : h[b]? with
    | none => exact ⟨ha, fun _ _ => rfl⟩
    | some o =>
      simp only
      split
      · rename_i hmut
        obtain ⟨h1, h2, h3⟩ := sources_spec r' src h
        generalize sources r' src h = t at h1 h2 h3
        have hlen : h.length ≤ t.2.length := h1.length_le
        have hb : ¬ Reach h r b := by
          intro hs
          have := ha.apart b o ⟨path, hp⟩ hs ho
          rw [hmut] at this; cases this
        have hsame : ∀ x, Reach h r x → (t.2.modify b (fun o => { o with kids := t.1 }))[x]? = h[x]? := by
          intro x hx
          have hne : b ≠ x := fun e => hb (e ▸ hx)
          rw [get_modify_ne _ _ _ _ hne]
          obtain ⟨y, hgx⟩ : ∃ y, h[x]? = some y := ⟨_, List.getElem?_eq_getElem (ha.small x hx)⟩
          rw [prefix_get h1 hgx, ← hgx]
        have hS : ∀ b o, Reach h r b → h[b]? = some o → ∀ k ∈ o.kids, Reach h r k :=
          fun b o hb ho k hk => reach_step hb ho hk
        have hreach : ∀ x, Reach (t.2.modify b (fun o => { o with kids := t.1 })) r x → Reach h r x := by
          rintro x ⟨q, hq⟩
          rw [resolve_same (Reach h r) hS hsame q (reach_refl _ _)] at hq
          exact ⟨q, hq⟩
        have hreach' : ∀ x, Reach (t.2.modify b (fun o => { o with kids := t.1 })) r' x →
            Reach h r' x ∨ (h.length ≤ x ∧ x < t.2.length) := by
          rintro x ⟨q, hq⟩
          refine reach_closed (fun x => Reach h r' x ∨ (h.length ≤ x ∧ x < t.2.length)) ?_ q (.inl (reach_refl _ _)) hq
          intro x ox hx hox
          by_cases he : b = x
          · subst he
            rw [List.getElem?_modify, prefix_get h1 ho] at hox
            simp at hox
            subst hox
            refine h3 _ (.inl (reach_refl _ _)) ?_ (fun y h5 h6 => .inr ⟨h5, h6⟩)
            intro y oy hy hoy k hk
            rcases hy with hy | hy
            · exact .inl (reach_step hy hoy hk)
            · rw [List.getElem?_eq_none hy.1] at hoy; cases hoy
          · rw [get_modify_ne _ _ _ _ he] at hox
            rcases hx with hx | hx
            · obtain ⟨y, hgx⟩ : ∃ y, h[x]? = some y := ⟨_, List.getElem?_eq_getElem (ha.small' x hx)⟩
              rw [prefix_get h1 hgx] at hox
              exact fun k hk => .inl (reach_step hx (by rw [hgx]; exact hox) hk)
            · rw [h2 x hx.1 ox hox]
              intro k hk; cases hk
        refine ⟨⟨?_, ?_, ?_⟩, hsame⟩
        · intro x hx
          have := ha.small x (hreach x hx)
          simp; omega
        · intro x hx
          simp only [List.length_modify]
          rcases hreach' x hx with hx | hx
          · have := ha.small' x hx; omega
          · exact hx.2
        · intro x ox hx' hx hox
          have hx := hreach x hx
          rw [hsame x hx] at hox
          rcases hreach' x hx' with hx' | hx'
          · exact ha.apart x ox hx' hx hox
          · have := ha.small x hx; omega
      · exact ⟨ha, fun _ _ => rfl⟩

theorem see_write {h : List Obj} {r r' : Nat} (ha : Apart h r r') (path : List Nat) (src : List Source) (p : List Nat) :
    resolve (write r' path src h) r p = resolve h r p ∧ see (write r' path src h) r p = see h r p := by
  have hsame := (apart_write ha path src).2
  have hres : resolve (write r' path src h) r p = resolve h r p :=
    resolve_same (Reach h r) (fun b o hb ho k hk => reach_step hb ho hk) hsame p (reach_refl _ _)
  refine ⟨hres, ?_⟩
  unfold see
  rw [hres]
  cases hb : resolve h r p with
  | none => rfl
  | some b => simp only [hsame b ⟨p, hb⟩]

theorem apart_history {r r' : Nat} (ws : List Change) : ∀ {h : List Obj}, Apart h r r' → Apart (history r r' ws h) r r' := by
  induction ws with
  | nil => intro h ha; exact ha
  | cons w ws ih =>
    intro h ha
    rw [history]
    cases w.first with
    | true => exact ih (apart_write ha.symm _ _).1.symm
    | false => exact ih (apart_write ha _ _).1

/-- In the heap with the copy, no mutable object can be reached from both. -/
theorem copy_apart {s : St} (hw : Graph H) (h : Inv H mode [] s) {r c : Nat} (hrc : s.img r = some c) :
    ∀ b o, Reach s.heap c b → Reach s.heap r b → s.heap[b]? = some o → o.kind.mutable = false := by
  rintro b o ⟨p, hp⟩ ⟨q, hq⟩ ho
  have hr := (h.src r c hrc).1
  have hb : b < H.length := by
    refine reach_closed (fun b => b < H.length) ?_ q hr hq
    intro x ox hx hox
    have hx' : H[x]? = some H[x] := List.getElem?_eq_getElem hx
    rw [prefix_get h.pre hx'] at hox
    cases hox
    exact hw.closed x _ hx'
  rcases resolve_copy h p hrc with ⟨_, h2⟩ | ⟨x, d, _, h2, h3⟩
  · rw [h2] at hp; cases hp
  · rw [h2] at hp
    cases hp
    obtain ⟨ox, od, h4, h5, h6, _, h8, _⟩ := good_of_inv h h3
    obtain ⟨he, hm⟩ := h8 hb
    rw [h5] at ho
    cases ho
    rw [h6]
    clear h6 h5 h4
    cases hk : ox.kind
    case sym v => by_cases hmo : mode = .realize <;> simp [Kind.copied, Kind.mutable, hmo]
    all_goals (rw [hk] at hm; simp_all [Kind.copied, Kind.mutable])

theorem orig_small {s : St} (hw : Graph H) (h : Inv H mode [] s) {r b : Nat} (hr : r < H.length)
    (hb : Reach s.heap r b) : b < s.heap.length := by
  obtain ⟨q, hq⟩ := hb
  refine Nat.lt_of_lt_of_le ?_ h.pre.length_le
  refine reach_closed (fun b => b < H.length) ?_ q hr hq
  intro x ox hx hox
  have hx' : H[x]? = some H[x] := List.getElem?_eq_getElem hx
  rw [prefix_get h.pre hx'] at hox
  cases hox
  exact hw.closed x _ hx'

theorem copy_small {s : St} (h : Inv H mode [] s) {r c b : Nat} (hrc : s.img r = some c)
    (hb : Reach s.heap c b) : b < s.heap.length := by
  obtain ⟨q, hq⟩ := hb
  rcases resolve_copy h q hrc with ⟨_, h2⟩ | ⟨x, d, _, h2, h3⟩
  · rw [h2] at hq; cases hq
  · rw [h2] at hq
    cases hq
    obtain ⟨ox, od, _, h5, _⟩ := good_of_inv h h3
    exact (List.getElem?_eq_some_iff.1 h5).1

end Verif.Copy
