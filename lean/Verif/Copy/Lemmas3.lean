import Verif.Copy.Lemmas2

/-! Copying comes to an end: each step down either enters an object into the memo or goes to a smaller rank. -/
namespace Verif.Copy

variable {H : List Obj} {mode : Mode}

/-- The number of objects without a copy. -/
def undone (H : List Obj) (s : St) : Nat := (List.range H.length).countP (fun a => (s.img a).isNone)

theorem countP_lt {α : Type} {p q : α → Bool} {l : List α} (hpq : ∀ x, p x = true → q x = true) {x : α} (hx : x ∈ l)
    (hp : p x = false) (hq : q x = true) : l.countP p < l.countP q := by
  induction l with
  | nil => cases hx
  | cons y l ih =>
    have hmono : l.countP p ≤ l.countP q := List.countP_mono_left (fun z _ hz => hpq z hz)
    rw [List.countP_cons, List.countP_cons]
    rcases List.mem_cons.1 hx with rfl | hx
    · simp [hp, hq]; omega
    · have := ih hx
      cases hy : p y with
      | true => simp [hpq y hy]; omega
      | false => cases q y <;> simp <;> omega

theorem undone_le {s s' : St} (h : ∀ a c, s.img a = some c → s'.img a = some c) : undone H s' ≤ undone H s := by
  refine List.countP_mono_left (fun a _ ha => ?_)
  cases hc : s.img a with
  | none => rfl
  | some c => rw [h a c hc] at ha; cases ha

theorem undone_lt {s s' : St} (h : ∀ a c, s.img a = some c → s'.img a = some c) {a c : Nat} (ha : a < H.length)
    (hn : s.img a = none) (hs : s'.img a = some c) : undone H s' < undone H s := by
  refine countP_lt ?_ (List.mem_range.2 ha) (by rw [hs]; rfl) (by rw [hn]; rfl)
  intro b hb
  cases hc : s.img b with
  | none => rfl
  | some c => rw [h b c hc] at hb; cases hb

def Res.ended {α : Type} : Res α → Prop
  | .outOfFuel => False
  | _ => True

def CopyEnds (H : List Obj) (mode : Mode) (rank : Nat → Nat) (u r n : Nat) : Prop :=
  ∀ m, n ≤ m → ∀ P a s, a < H.length → Inv H mode P s → undone H s ≤ u → rank a < r → (copy mode m a s).ended

theorem copyAll_ends (hw : Graph H) (hm : mode ≠ .std) {rank : Nat → Nat} {u r n : Nat} (h : CopyEnds H mode rank u r n) (xs : List Nat) :
    ∀ m, n + xs.length + 1 ≤ m → ∀ P s, (∀ x ∈ xs, x < H.length ∧ rank x < r) → Inv H mode P s → undone H s ≤ u →
      (copyAll mode m xs s).ended := by
  induction xs with
  | nil =>
    intro m hn P s _ _ _
    cases m with
    | zero => omega
    | succ m => simp [copyAll, Res.ended]
  | cons x xs ih =>
    intro m hn P s hx hi hu
    cases m with
    | zero => omega
    | succ m =>
      simp only [List.length_cons] at hn
      rw [copyAll]
      have h1 := h m (by omega) P x s (hx x (by simp)).1 hi hu (hx x (by simp)).2
      have h2 := (spec hw hm m).1 P x s (hx x (by simp)).1 hi
      cases hc : copy mode m x s with
      | ok c s' =>
        rw [hc] at h2
        obtain ⟨h3, h4, _⟩ := h2
        have h5 := ih m (by omega) P s' (fun y hy => hx y (by simp [hy])) h3 (Nat.le_trans (undone_le h4.1) hu)
        simp only
        cases hr : copyAll mode m xs s' with
        | outOfFuel => rw [hr] at h5; exact h5
        | _ => trivial
      | outOfFuel => rw [hc] at h1; exact h1
      | _ => trivial

theorem fill_ends (hw : Graph H) (hm : mode ≠ .std) {rank : Nat → Nat} {u r n : Nat} (h : CopyEnds H mode rank u r n) (xs : List Nat) :
    ∀ m, n + xs.length + 1 ≤ m → ∀ P a y s, (∀ x ∈ xs, x < H.length ∧ rank x < r) → Inv H mode P s → (a, y) ∈ P →
      undone H s ≤ u → (fill mode m y xs s).ended := by
  induction xs with
  | nil =>
    intro m hn P a y s _ _ _ _
    cases m with
    | zero => omega
    | succ m => simp [fill, Res.ended]
  | cons x xs ih =>
    intro m hn P a y s hx hi hy hu
    cases m with
    | zero => omega
    | succ m =>
      simp only [List.length_cons] at hn
      rw [fill]
      have h1 := h m (by omega) P x s (hx x (by simp)).1 hi hu (hx x (by simp)).2
      have h2 := (spec hw hm m).1 P x s (hx x (by simp)).1 hi
      cases hc : copy mode m x s with
      | ok c s' =>
        rw [hc] at h2
        obtain ⟨h3, h4, _⟩ := h2
        exact ih m (by omega) P a y (s'.append y c) (fun y hy => hx y (by simp [hy])) (inv_append h3 hy c) hy
          (Nat.le_trans (undone_le h4.1) hu)
      | outOfFuel => rw [hc] at h1; exact h1
      | _ => trivial

theorem exists_bound {f : Nat → Nat} (n : Nat) : ∃ b, ∀ a < n, f a < b := by
  induction n with
  | zero => exact ⟨0, by omega⟩
  | succ n ih =>
    obtain ⟨b, hb⟩ := ih
    refine ⟨max b (f n + 1), fun a ha => ?_⟩
    by_cases he : a = n
    · subst he; omega
    · have := hb a (by omega); omega

theorem copy_ends (hw : Graph H) (hm : mode ≠ .std) {rank : Nat → Nat}
    (hrank : ∀ (a : Nat) (o : Obj), H[a]? = some o → o.kind = .tuple ∨ o.kind = .set → ∀ k ∈ o.kids, rank k < rank a) :
    ∀ u r, ∃ n, CopyEnds H mode rank u r n := by
  obtain ⟨R, hR⟩ := exists_bound (f := rank) H.length
  obtain ⟨L, hL⟩ := exists_bound (f := fun a => match H[a]? with | some o => o.kids.length | none => 0) H.length
  intro u
  induction u with
  | zero =>
    intro r
    refine ⟨1, fun m hn P a s ha hi hu hr => ?_⟩
    cases m with
    | zero => omega
    | succ m =>
      rw [copy]
      cases hl : s.memo.lookup a with
      | some c => simp only; split <;> trivial
      | none =>
        exfalso
        have := undone_lt (H := H) (s' := s.memoize a a) (le_memoize a hl).1 ha hl (by rw [img_memoize, if_pos rfl])
        omega
  | succ u ihu =>
    obtain ⟨nf, hnf⟩ := ihu R
    intro r
    induction r with
    | zero => exact ⟨0, fun m hn P a s ha hi hu hr => by omega⟩
    | succ r ihr =>
      obtain ⟨na, hna⟩ := ihr
      refine ⟨na + nf + L + 4, fun m hn P a s ha hi hu hr => ?_⟩
      obtain ⟨m, rfl⟩ : ∃ k, m = k + 2 := ⟨m - 2, by omega⟩
      rw [copy]
      cases hl : s.memo.lookup a with
      | some c => simp only; split <;> trivial
      | none =>
        simp only [hm, if_false, or_false]
        obtain ⟨hkept, hik⟩ : a ∈ (s.keep a).kept ∧ Inv H mode P (s.keep a) := ⟨List.mem_cons_self .., inv_keep hi a⟩
        have hn' : (s.keep a).img a = none := hl
        have hu' : undone H (s.keep a) ≤ u + 1 := hu
        suffices hc : (construct mode (m + 1) a (s.keep a)).ended by
          cases hr : construct mode (m + 1) a (s.keep a) with
          | ok c s' => trivial
          | typeError s' => simp only; split <;> trivial
          | internal => trivial
          | outOfFuel => rw [hr] at hc; exact hc
        generalize s.keep a = t at *
        have ho : H[a]? = some H[a] := List.getElem?_eq_getElem ha
        generalize H[a] = o at ho
        have hkl : ∀ x ∈ o.kids, x < H.length := hw.closed a o ho
        have hlen : o.kids.length < L := by have := hL a ha; simp only [ho] at this; exact this
        rw [construct]
        rw [prefix_get hik.pre ho]
        simp only
        have all : ∀ (hk : o.kind = .tuple ∨ o.kind = .set), (copyAll mode m o.kids t).ended := fun hk =>
          copyAll_ends hw hm hna o.kids m (by omega) P t
            (fun x hx => ⟨hkl x hx, by have := hrank a o ho hk x hx; omega⟩) hik hu'
        have filled : ∀ kind, (fill mode m t.heap.length o.kids ((t.alloc ⟨kind, []⟩).memoize a t.heap.length)).ended := by
          intro kind
          have hlt : undone H ((t.alloc ⟨kind, []⟩).memoize a t.heap.length) < undone H t :=
            undone_lt (le_trans (le_alloc t _) (le_memoize (s := t.alloc ⟨kind, []⟩) _ hn')).1 ha hn'
              (by rw [img_memoize, if_pos rfl])
          refine fill_ends hw hm hnf o.kids m (by omega) ((a, t.heap.length) :: P) a t.heap.length _
            (fun x hx => ⟨hkl x hx, hR x (hkl x hx)⟩) ?_ (List.mem_cons_self ..) (by omega)
          exact inv_pend hik ha hn' hkept kind
        cases hk : o.kind with
        | atom v => trivial
        | sym v => simp only; split <;> trivial
        | locked v => trivial
        | method fn => exact absurd hk (hw.noMethod a o ho fn)
        | tuple =>
          have := all (.inl hk)
          simp only
          cases hc : copyAll mode m o.kids t with
          | ok ys s' =>
            simp only
            cases s'.memo.lookup a with
            | some c => trivial
            | none => simp only; split <;> trivial
          | outOfFuel => rw [hc] at this; exact this
          | _ => trivial
        | set =>
          have := all (.inr hk)
          simp only
          cases hc : copyAll mode m o.kids t with
          | outOfFuel => rw [hc] at this; exact this
          | _ => trivial
        | list =>
          have := filled .list
          simp only
          cases hc : fill mode m t.heap.length o.kids ((t.alloc ⟨.list, []⟩).memoize a t.heap.length) with
          | outOfFuel => rw [hc] at this; exact this
          | _ => trivial
        | dict =>
          have := filled .dict
          simp only
          cases hc : fill mode m t.heap.length o.kids ((t.alloc ⟨.dict, []⟩).memoize a t.heap.length) with
          | outOfFuel => rw [hc] at this; exact this
          | _ => trivial
        | inst cls names =>
          have := filled (.inst cls names)
          simp only
          cases hc : fill mode m t.heap.length o.kids ((t.alloc ⟨.inst cls names, []⟩).memoize a t.heap.length) with
          | outOfFuel => rw [hc] at this; exact this
          | _ => trivial

end Verif.Copy
