import Verif.Mask.Spec

namespace Verif.Mask

theorem covers_iff (m : Mask) (c : Nat) : covers m c = true ↔ ∃ b ∈ bounds m, b.1 ≤ c ∧ c < b.2 := by
  simp [covers, List.any_eq_true]

theorem newPart_bounds (lo hi : Nat) : (newPart lo hi).bounds = (lo, hi) := by
  unfold newPart
  split
  · rename_i h; rw [Part.bounds, h]
  · rfl

/-- All bounds of a mask begin at or in front of `x`. -/
def Upto (m : Mask) (x : Nat) : Prop := ∀ b ∈ bounds m, b.1 ≤ x

theorem add_ok {m : Mask} {lo hi : Nat} (hm : m.Ok) (hu : lo < hi → Upto m lo) (hhi : hi ≤ top) :
    (maybeAdd m lo hi).Ok ∧ (∀ c, covers (maybeAdd m lo hi) c = true ↔ covers m c = true ∨ (lo ≤ c ∧ c < hi)) ∧
      (∀ x, Upto m x → (lo < hi → lo ≤ x) → Upto (maybeAdd m lo hi) x) := by
  unfold maybeAdd
  split
  case isFalse h => exact ⟨hm, fun c => ⟨.inl, fun h' => h'.elim id (fun h' => by omega)⟩, fun x hx _ => hx⟩
  case isTrue h =>
    have app : ∀ {m : Mask}, m.Ok → (∀ b ∈ bounds m, b.2 < lo) → (m ++ [newPart lo hi] : Mask).Ok ∧
        (∀ c, covers (m ++ [newPart lo hi]) c = true ↔ covers m c = true ∨ (lo ≤ c ∧ c < hi)) ∧
        (∀ x, Upto m x → (lo < hi → lo ≤ x) → Upto (m ++ [newPart lo hi]) x) := by
      intro m hm hlast
      have hb : bounds (m ++ [newPart lo hi]) = bounds m ++ [(lo, hi)] := by simp [bounds, newPart_bounds]
      refine ⟨⟨?_, ?_⟩, ?_, ?_⟩
      · rw [hb]
        intro b hb'
        rcases List.mem_append.1 hb' with hb' | hb'
        · exact hm.part b hb'
        · simp only [List.mem_singleton] at hb'
          subst hb'
          exact ⟨h, hhi⟩
      · rw [hb, List.pairwise_append]
        refine ⟨hm.order, by simp, ?_⟩
        intro a ha b hb'
        simp only [List.mem_singleton] at hb'
        subst hb'
        exact hlast a ha
      · intro c
        rw [covers_iff, covers_iff, hb]
        constructor
        · rintro ⟨b, hb', h1⟩
          rcases List.mem_append.1 hb' with hb' | hb'
          · exact .inl ⟨b, hb', h1⟩
          · simp only [List.mem_singleton] at hb'
            subst hb'
            exact .inr h1
        · rintro (⟨b, hb', h1⟩ | h1)
          · exact ⟨b, List.mem_append.2 (.inl hb'), h1⟩
          · exact ⟨(lo, hi), by simp, h1⟩
      · intro x hx hx' b hb'
        rw [hb] at hb'
        rcases List.mem_append.1 hb' with hb' | hb'
        · exact hx b hb'
        · simp only [List.mem_singleton] at hb'
          subst hb'
          exact hx' h
    cases hl : m.getLast? with
    | none =>
      simp only
      have : m = [] := List.getLast?_eq_none_iff.1 hl
      subst this
      exact app hm (by simp [bounds])
    | some p =>
      simp only
      obtain ⟨m', rfl⟩ : ∃ m', m = m' ++ [p] := by
        obtain ⟨m', h'⟩ := List.getLast?_eq_some_iff.1 hl
        exact ⟨m', h'⟩
      have hb : bounds (m' ++ [p]) = bounds m' ++ [p.bounds] := by simp [bounds]
      have hord := hm.order
      rw [hb, List.pairwise_append] at hord
      obtain ⟨ho1, _, ho2⟩ := hord
      have hp := hm.part p.bounds (by rw [hb]; simp)
      have hplo : p.bounds.1 ≤ lo := hu h p.bounds (by rw [hb]; simp)
      split
      · rename_i h1
        split
        · rename_i h2
          refine ⟨hm, fun c => ⟨.inl, fun h' => h'.elim id fun h' => ?_⟩, fun x hx _ => hx⟩
          rw [covers_iff]
          exact ⟨p.bounds, by rw [hb]; simp, by omega⟩
        · rename_i h2
          have hb2 : bounds ((m' ++ [p]).dropLast ++ [Part.span p.bounds.1 hi]) = bounds m' ++ [(p.bounds.1, hi)] := by
            simp [bounds, Part.bounds]
          refine ⟨⟨?_, ?_⟩, ?_, ?_⟩
          · rw [hb2]
            intro b hb'
            rcases List.mem_append.1 hb' with hb' | hb'
            · exact hm.part b (by rw [hb]; exact List.mem_append.2 (.inl hb'))
            · simp only [List.mem_singleton] at hb'
              subst hb'
              exact ⟨by show p.bounds.1 < hi; omega, hhi⟩
          · rw [hb2, List.pairwise_append]
            refine ⟨ho1, by simp, ?_⟩
            intro a ha b hb'
            simp only [List.mem_singleton] at hb'
            subst hb'
            exact ho2 a ha p.bounds (by simp)
          · intro c
            rw [covers_iff, covers_iff, hb2, hb]
            constructor
            · rintro ⟨b, hb', hc⟩
              rcases List.mem_append.1 hb' with hb' | hb'
              · exact .inl ⟨b, List.mem_append.2 (.inl hb'), hc⟩
              · simp only [List.mem_singleton] at hb'
                subst hb'
                by_cases hcl : c < p.bounds.2
                · exact .inl ⟨p.bounds, by simp, hc.1, hcl⟩
                · exact .inr ⟨by omega, hc.2⟩
            · rintro (⟨b, hb', hc⟩ | hc)
              · rcases List.mem_append.1 hb' with hb' | hb'
                · exact ⟨b, List.mem_append.2 (.inl hb'), hc⟩
                · simp only [List.mem_singleton] at hb'
                  subst hb'
                  exact ⟨(p.bounds.1, hi), by simp, hc.1, by show c < hi; omega⟩
              · exact ⟨(p.bounds.1, hi), by simp, by show p.bounds.1 ≤ c; omega, hc.2⟩
          · intro x hx _ b hb'
            rw [hb2] at hb'
            rcases List.mem_append.1 hb' with hb' | hb'
            · exact hx b (by rw [hb]; exact List.mem_append.2 (.inl hb'))
            · simp only [List.mem_singleton] at hb'
              subst hb'
              exact hx p.bounds (by rw [hb]; simp)
      · rename_i h1
        refine app hm ?_
        intro b hb'
        rw [hb] at hb'
        rcases List.mem_append.1 hb' with hb' | hb'
        · have := ho2 b hb' p.bounds (by simp)
          omega
        · simp only [List.mem_singleton] at hb'
          subst hb'
          omega

/-- Bounds that are added one after the other, the ones that are not empty in order. -/
theorem addAll_ok {bs : List (Nat × Nat)} (ht : ∀ b ∈ bs, b.2 ≤ top) (hs : bs.Pairwise fun a b => a.1 < a.2 → b.1 < b.2 → a.1 ≤ b.1) :
    (addAll bs).Ok ∧ ∀ c, covers (addAll bs) c = true ↔ ∃ b ∈ bs, b.1 ≤ c ∧ c < b.2 := by
  have key : ∀ (bs : List (Nat × Nat)) (m : Mask), m.Ok → (∀ b ∈ bs, b.2 ≤ top) → (bs.Pairwise fun a b => a.1 < a.2 → b.1 < b.2 → a.1 ≤ b.1) →
      (∀ b ∈ bs, b.1 < b.2 → Upto m b.1) → (bs.foldl (fun m b => maybeAdd m b.1 b.2) m).Ok ∧
      ∀ c, covers (bs.foldl (fun m b => maybeAdd m b.1 b.2) m) c = true ↔ covers m c = true ∨ ∃ b ∈ bs, b.1 ≤ c ∧ c < b.2 := by
    intro bs
    induction bs with
    | nil => intro m hm _ _ _; exact ⟨hm, fun c => by simp⟩
    | cons b bs ih =>
      intro m hm ht hs hu
      rw [List.pairwise_cons] at hs
      obtain ⟨h1, h2, h3⟩ := add_ok (lo := b.1) (hi := b.2) hm (hu b (by simp)) (ht b (by simp))
      obtain ⟨h4, h5⟩ := ih (maybeAdd m b.1 b.2) h1 (fun x hx => ht x (by simp [hx])) hs.2
        (fun x hx hlt => h3 _ (hu x (by simp [hx]) hlt) (fun hb => hs.1 x hx hb hlt))
      refine ⟨h4, fun c => ?_⟩
      rw [List.foldl_cons, h5 c, h2 c]
      simp only [List.mem_cons, exists_eq_or_imp, or_assoc]
  obtain ⟨h1, h2⟩ := key bs [] ⟨by simp [bounds], by simp [bounds]⟩ ht hs (fun b _ _ => by simp [Upto, bounds])
  refine ⟨h1, fun c => ?_⟩
  rw [addAll, h2 c]
  simp [covers, bounds]

/-! ## Operations -/

theorem mem_insertPair (x y : Nat × Nat) (ys : List (Nat × Nat)) : y ∈ insertPair x ys ↔ y = x ∨ y ∈ ys := by
  induction ys with
  | nil => simp [insertPair]
  | cons z ys ih =>
    rw [insertPair]
    split
    · simp
    · rw [List.mem_cons, ih, List.mem_cons]
      constructor
      · rintro (h | h | h)
        · exact .inr (.inl h)
        · exact .inl h
        · exact .inr (.inr h)
      · rintro (h | h | h)
        · exact .inr (.inl h)
        · exact .inl h
        · exact .inr (.inr h)

theorem mem_sortPairs (y : Nat × Nat) (xs : List (Nat × Nat)) : y ∈ sortPairs xs ↔ y ∈ xs := by
  induction xs with
  | nil => simp [sortPairs]
  | cons x xs ih =>
    show y ∈ insertPair x (sortPairs xs) ↔ _
    rw [mem_insertPair, ih, List.mem_cons]

theorem sortPairs_sorted (xs : List (Nat × Nat)) : (sortPairs xs).Pairwise fun a b => a.1 ≤ b.1 := by
  have ins : ∀ (x : Nat × Nat) (ys : List (Nat × Nat)), (ys.Pairwise fun a b => a.1 ≤ b.1) → (insertPair x ys).Pairwise fun a b => a.1 ≤ b.1 := by
    intro x ys
    induction ys with
    | nil => intro _; simp [insertPair]
    | cons y ys ih =>
      intro h
      rw [List.pairwise_cons] at h
      rw [insertPair]
      split
      · rename_i hxy
        rw [List.pairwise_cons, List.pairwise_cons]
        refine ⟨?_, h⟩
        intro z hz
        rcases List.mem_cons.1 hz with rfl | hz
        · omega
        · have := h.1 z hz
          omega
      · rename_i hxy
        rw [List.pairwise_cons]
        refine ⟨?_, ih h.2⟩
        intro z hz
        rcases (mem_insertPair x z ys).1 hz with rfl | hz
        · omega
        · exact h.1 z hz
  induction xs with
  | nil => exact .nil
  | cons x xs ih => exact ins x _ ih

theorem union_ok {m n : Mask} (hm : ∀ b ∈ bounds m, b.2 ≤ top) (hn : ∀ b ∈ bounds n, b.2 ≤ top) :
    (union m n).Ok ∧ ∀ c, covers (union m n) c = true ↔ covers m c = true ∨ covers n c = true := by
  obtain ⟨h1, h2⟩ := addAll_ok (bs := sortPairs (bounds m ++ bounds n)) (fun b hb => by
    rw [mem_sortPairs, List.mem_append] at hb
    exact hb.elim (hm b) (hn b)) ((sortPairs_sorted _).imp (fun h _ _ => h))
  refine ⟨h1, fun c => ?_⟩
  rw [union, h2 c, covers_iff, covers_iff]
  constructor
  · rintro ⟨b, hb, hc⟩
    rw [mem_sortPairs, List.mem_append] at hb
    exact hb.elim (fun hb => .inl ⟨b, hb, hc⟩) (fun hb => .inr ⟨b, hb, hc⟩)
  · rintro (⟨b, hb, hc⟩ | ⟨b, hb, hc⟩)
    · exact ⟨b, by rw [mem_sortPairs, List.mem_append]; exact .inl hb, hc⟩
    · exact ⟨b, by rw [mem_sortPairs, List.mem_append]; exact .inr hb, hc⟩

theorem Mask.Ok.loose {m : Mask} (h : m.Ok) : m.Loose := ⟨h.part, h.order.imp fun h => Nat.le_of_lt h⟩

theorem intersect_ok {m n : Mask} (hm : m.Loose) (hn : n.Loose) :
    (intersect m n).Ok ∧ ∀ c, covers (intersect m n) c = true ↔ covers m c = true ∧ covers n c = true := by
  have ht : ∀ x ∈ (bounds m).flatMap fun a => (bounds n).map fun b => (max a.1 b.1, min a.2 b.2), x.2 ≤ top := by
    intro x hx
    obtain ⟨a, ha, hx⟩ := List.mem_flatMap.1 hx
    obtain ⟨b, hb, rfl⟩ := List.mem_map.1 hx
    have := hm.part a ha
    simp only
    omega
  have hs : ((bounds m).flatMap fun a => (bounds n).map fun b => (max a.1 b.1, min a.2 b.2)).Pairwise
      fun a b => a.1 < a.2 → b.1 < b.2 → a.1 ≤ b.1 := by
    rw [List.pairwise_flatMap]
    constructor
    · intro a _
      rw [List.pairwise_map]
      refine hn.order.imp ?_
      intro b b' hbb h1 h2
      simp only at h1 h2 ⊢
      omega
    · refine hm.order.imp ?_
      intro a a' haa x hx y hy h1 h2
      obtain ⟨b, _, rfl⟩ := List.mem_map.1 hx
      obtain ⟨b', _, rfl⟩ := List.mem_map.1 hy
      simp only at h1 h2 ⊢
      omega
  obtain ⟨h1, h2⟩ := addAll_ok ht hs
  refine ⟨h1, fun c => ?_⟩
  rw [intersect, h2 c, covers_iff, covers_iff]
  constructor
  · rintro ⟨x, hx, hc⟩
    obtain ⟨a, ha, hx⟩ := List.mem_flatMap.1 hx
    obtain ⟨b, hb, rfl⟩ := List.mem_map.1 hx
    simp only at hc
    exact ⟨⟨a, ha, by omega⟩, ⟨b, hb, by omega⟩⟩
  · rintro ⟨⟨a, ha, h1⟩, ⟨b, hb, h2⟩⟩
    refine ⟨(max a.1 b.1, min a.2 b.2), List.mem_flatMap.2 ⟨a, ha, List.mem_map.2 ⟨b, hb, rfl⟩⟩, ?_⟩
    simp only
    omega

/-- The gaps between bounds. -/
theorem gaps : ∀ (bs : List (Nat × Nat)) (prev : Nat), (∀ b ∈ bs, b.1 < b.2 ∧ b.2 ≤ top) → bs.Pairwise (fun a b => a.2 ≤ b.1) → (∀ b ∈ bs, prev ≤ b.1) →
    prev ≤ top → (∀ g ∈ pairUp (prev :: bs.flatMap (fun b => [b.1, b.2]) ++ [top]), prev ≤ g.1 ∧ g.1 ≤ g.2 ∧ g.2 ≤ top) ∧
      (pairUp (prev :: bs.flatMap (fun b => [b.1, b.2]) ++ [top])).Pairwise (fun a b => a.1 ≤ b.1) ∧
      ∀ c, (∃ g ∈ pairUp (prev :: bs.flatMap (fun b => [b.1, b.2]) ++ [top]), g.1 ≤ c ∧ c < g.2) ↔ prev ≤ c ∧ c < top ∧ ∀ b ∈ bs, ¬(b.1 ≤ c ∧ c < b.2)
  | [], prev, _, _, _, ht => by simp [pairUp, ht]
  | b :: bs, prev, hp, ho, hl, ht => by
    have hb := hp b (by simp)
    have hprev := hl b (by simp)
    rw [List.pairwise_cons] at ho
    obtain ⟨h1, h2, h3⟩ := gaps bs b.2 (fun x hx => hp x (by simp [hx])) ho.2 ho.1 hb.2
    have he : pairUp (prev :: (b :: bs).flatMap (fun b => [b.1, b.2]) ++ [top]) = (prev, b.1) :: pairUp (b.2 :: bs.flatMap (fun b => [b.1, b.2]) ++ [top]) := by
      simp [pairUp]
    rw [he]
    refine ⟨?_, ?_, ?_⟩
    · intro g hg
      rcases List.mem_cons.1 hg with rfl | hg
      · simp only; omega
      · have := h1 g hg; omega
    · rw [List.pairwise_cons]
      refine ⟨?_, h2⟩
      intro g hg
      have := h1 g hg
      simp only
      omega
    · intro c
      simp only [List.mem_cons, exists_eq_or_imp, h3 c, forall_eq_or_imp]
      constructor
      · rintro (h | ⟨h4, h5, h6⟩)
        · refine ⟨by omega, by omega, by omega, ?_⟩
          intro x hx
          have := ho.1 x hx
          omega
        · exact ⟨by omega, h5, by omega, h6⟩
      · rintro ⟨h4, h5, h6, h7⟩
        by_cases hc : c < b.1
        · exact .inl ⟨h4, hc⟩
        · exact .inr ⟨by omega, h5, h7⟩

theorem invert_ok {m : Mask} (hm : m.Loose) : (invert m).Ok ∧ ∀ c, covers (invert m) c = true ↔ c < top ∧ covers m c = false := by
  obtain ⟨h1, h2, h3⟩ := gaps (bounds m) 0 hm.part hm.order (fun _ _ => Nat.zero_le _) (Nat.zero_le _)
  obtain ⟨h4, h5⟩ := addAll_ok (fun g hg => (h1 g hg).2.2) (h2.imp (fun h _ _ => h))
  refine ⟨h4, fun c => ?_⟩
  have := h5 c
  rw [h3 c] at this
  rw [show invert m = addAll (pairUp (0 :: (bounds m).flatMap (fun b => [b.1, b.2]) ++ [top])) from rfl, this]
  rw [Bool.eq_false_iff, Ne, covers_iff]
  constructor
  · rintro ⟨_, h6, h7⟩
    exact ⟨h6, fun ⟨b, hb, hc⟩ => h7 b hb hc⟩
  · rintro ⟨h6, h7⟩
    exact ⟨Nat.zero_le _, h6, fun b hb hc => h7 ⟨b, hb, hc⟩⟩

theorem subtract_ok {m n : Mask} (hm : m.Loose) (hn : n.Loose) :
    (subtract m n).Ok ∧ ∀ c, covers (subtract m n) c = true ↔ covers m c = true ∧ covers n c = false := by
  obtain ⟨h1, h2⟩ := invert_ok hn
  obtain ⟨h3, h4⟩ := intersect_ok hm h1.loose
  refine ⟨h3, fun c => ?_⟩
  rw [subtract, h4 c, h2 c]
  constructor
  · rintro ⟨h5, _, h6⟩; exact ⟨h5, h6⟩
  · rintro ⟨h5, h6⟩
    obtain ⟨b, hb, hc⟩ := (covers_iff m c).1 h5
    have := hm.part b hb
    exact ⟨h5, by omega, h6⟩

theorem smtMatches_eq (m : Mask) (c : Nat) : smtMatches m c = covers m c := by
  unfold smtMatches covers bounds
  rw [List.any_map]
  congr 1
  funext p
  rw [Bool.eq_iff_iff]
  cases p with
  | one d =>
    show ((c : Int) == d) = true ↔ (decide (d ≤ c) && decide (c < d + 1)) = true
    simp only [beq_iff_eq, Bool.and_eq_true, decide_eq_true_eq]
    omega
  | span lo hi =>
    show (decide ((lo : Int) ≤ c) && decide ((c : Int) < hi)) = true ↔ (decide (lo ≤ c) && decide (c < hi)) = true
    simp only [Bool.and_eq_true, decide_eq_true_eq]
    omega

theorem smtMatches_neg (m : Mask) (c : Int) (h : c < 0) : smtMatches m c = false := by
  unfold smtMatches
  rw [List.any_eq_false]
  intro p _
  cases p with
  | one d => simp only [beq_iff_eq]; omega
  | span lo hi => simp only [Bool.and_eq_true, decide_eq_true_eq]; omega

/-! ## Terms -/

theorem one_loose (c : Nat) (h : c < top) : Mask.Loose [.one c] := ⟨by simp [bounds, Part.bounds]; omega, by simp [bounds]⟩
theorem span_loose (lo hi : Nat) (h : lo < hi) (h' : hi ≤ top) : Mask.Loose [.span lo hi] :=
  ⟨by simp [bounds, Part.bounds]; omega, by simp [bounds]⟩

theorem ones_loose (cs : List Nat) (h : cs.Pairwise (· < ·)) (ht : ∀ c ∈ cs, c < top) : Mask.Loose (cs.map .one) := by
  have hb : bounds (cs.map .one) = cs.map fun c => (c, c + 1) := by simp [bounds, Function.comp_def, Part.bounds]
  refine ⟨?_, ?_⟩
  · rw [hb]
    intro b hb
    obtain ⟨c, hc, rfl⟩ := List.mem_map.1 hb
    have := ht c hc
    simp only
    omega
  · rw [hb, List.pairwise_map]
    exact h.imp fun h => h

theorem ones_covers (cs : List Nat) (c : Nat) : covers (cs.map .one) c = true ↔ c ∈ cs := by
  rw [covers_iff]
  have hb : bounds (cs.map .one) = cs.map fun c => (c, c + 1) := by simp [bounds, Function.comp_def, Part.bounds]
  rw [hb]
  constructor
  · rintro ⟨b, hb, h⟩
    obtain ⟨d, hd, rfl⟩ := List.mem_map.1 hb
    simp only at h
    have : c = d := by omega
    exact this ▸ hd
  · intro h
    exact ⟨(c, c + 1), List.mem_map.2 ⟨c, h, rfl⟩, by simp only; omega⟩

theorem asciiChars_loose : Mask.Loose asciiChars := span_loose _ _ (by decide) (by decide)
theorem asciiChars_covers (c : Nat) : covers asciiChars c = true ↔ c < 128 := by simp [covers, bounds, Part.bounds, asciiChars]
theorem asciiSpace_loose : Mask.Loose asciiSpace := ⟨by decide, by decide⟩

theorem space_loose (ascii : Bool) : Mask.Loose (if ascii then asciiSpace else unicodeSpace) := by
  cases ascii
  · exact (union_ok (m := asciiSpace) (by decide) (by decide)).1.loose
  · exact asciiSpace_loose

theorem space_covers (ascii : Bool) (c : Nat) : covers (if ascii then asciiSpace else unicodeSpace) c = true ↔ isSpace ascii c := by
  cases ascii
  · simp only [Bool.false_eq_true, if_false, unicodeSpace]
    rw [(union_ok (m := asciiSpace) (by decide) (by decide)).2 c]
    simp only [covers, bounds, asciiSpace, Part.bounds, isSpace, List.map_cons, List.map_nil, List.any_cons, List.any_nil, Bool.or_false,
      Bool.or_eq_true, Bool.and_eq_true, decide_eq_true_eq, true_and]
    omega
  · simp only [if_true]
    simp only [covers, bounds, asciiSpace, Part.bounds, isSpace, List.map_cons, List.map_nil, List.any_cons, List.any_nil, Bool.or_false,
      Bool.or_eq_true, Bool.and_eq_true, decide_eq_true_eq, Bool.true_eq_false, false_and, or_false]
    omega

theorem ascii_loose {m : Mask} (h : m.Loose) (ascii : Bool) : Mask.Loose (if ascii then intersect m asciiChars else m) := by
  cases ascii
  · exact h
  · exact (intersect_ok h asciiChars_loose).1.loose

theorem ascii_covers {m : Mask} (h : m.Loose) (ascii : Bool) (c : Nat) :
    covers (if ascii then intersect m asciiChars else m) c = true ↔ covers m c = true ∧ (ascii = true → c < 128) := by
  cases ascii
  · simp
  · simp only [if_true, (intersect_ok h asciiChars_loose).2 c, asciiChars_covers, forall_const]

theorem invert_covers {m : Mask} (h : m.Loose) {c : Nat} (hc : c < top) : covers (invert m) c = true ↔ ¬covers m c = true := by
  rw [(invert_ok h).2 c]
  simp [hc]

theorem category_ok {u : Unicode} (hu : u.Ok) (f : Flags) (k : Category) : (categoryMask u f k).Loose ∧
    ∀ c < top, covers (categoryMask u f k) c = true ↔ inCategory u f.ascii c k := by
  cases k with
  | digit => exact ⟨ascii_loose hu.digit _, fun c _ => ascii_covers hu.digit _ c⟩
  | word => exact ⟨ascii_loose hu.word _, fun c _ => ascii_covers hu.word _ c⟩
  | space => exact ⟨space_loose _, fun c _ => space_covers _ c⟩
  | notDigit =>
    refine ⟨(invert_ok (ascii_loose hu.digit _)).1.loose, fun c hc => ?_⟩
    rw [categoryMask, invert_covers (ascii_loose hu.digit _) hc, ascii_covers hu.digit]
    rfl
  | notWord =>
    refine ⟨(invert_ok (ascii_loose hu.word _)).1.loose, fun c hc => ?_⟩
    rw [categoryMask, invert_covers (ascii_loose hu.word _) hc, ascii_covers hu.word]
    rfl
  | notSpace =>
    refine ⟨(invert_ok (space_loose _)).1.loose, fun c hc => ?_⟩
    rw [categoryMask, invert_covers (space_loose _) hc, space_covers]
    rfl

theorem one_covers (c d : Nat) : covers [.one d] c = true ↔ c = d := by
  simp only [covers, bounds, Part.bounds, List.map_cons, List.map_nil, List.any_cons, List.any_nil, Bool.or_false,
      Bool.and_eq_true, decide_eq_true_eq]
  omega

theorem term_ok {u : Unicode} (hu : u.Ok) {f : Flags} (hf : f.ignoreCase = false) {t : Term} (ht : t.Ok) :
    ∃ m, termMask u f t = .ok m ∧ m.Loose ∧ ∀ c < top, covers m c = true ↔ t.Matches u f c := by
  cases t with
  | literal d =>
    refine ⟨[.one d], by simp [termMask, literalMask, hf], one_loose _ ht, fun c _ => one_covers c d⟩
  | notLiteral d =>
    refine ⟨invert [.one d], by simp [termMask, literalMask, hf, Except.map], (invert_ok (one_loose _ ht)).1.loose, fun c hc => ?_⟩
    rw [invert_covers (one_loose _ ht) hc, one_covers]
    rfl
  | range lo hi =>
    refine ⟨[.span lo (hi + 1)], by simp [termMask, rangeMask, hf], span_loose _ _ (by have := ht.1; omega) (by have := ht.2; omega), fun c hc => ?_⟩
    simp only [covers, bounds, Part.bounds, List.map_cons, List.map_nil, List.any_cons, List.any_nil, Bool.or_false,
      Bool.and_eq_true, decide_eq_true_eq, Term.Matches]
    omega
  | category k => exact ⟨_, rfl, category_ok hu f k⟩
  | any =>
    refine ⟨_, rfl, ?_⟩
    have ha : Mask.Loose anyChar := span_loose _ _ (by decide) (by decide)
    have hac : ∀ c < top, covers anyChar c = true := by
      intro c hc
      simpa [covers, bounds, Part.bounds, anyChar] using hc
    have hn := subtract_ok ha (one_loose 10 (by decide))
    cases hd : f.dotAll
    · simp only [Bool.false_eq_true, if_false]
      refine ⟨hn.1.loose, fun c hc => ?_⟩
      rw [notNewline, hn.2 c, Bool.eq_false_iff, Ne, one_covers]
      simp [hac c hc, Term.Matches, hd]
    · simp only [if_true]
      exact ⟨ha, fun c hc => by simp [hac c hc, Term.Matches, hd]⟩

theorem loose_nil : Mask.Loose [] := ⟨by simp [bounds], by simp [bounds]⟩

theorem unionAll_ok {u : Unicode} (hu : u.Ok) {f : Flags} (hf : f.ignoreCase = false) : ∀ (ts : List Term) (m : Mask), (∀ t ∈ ts, t.Ok) → m.Loose →
    ∃ m', unionAll u f m ts = .ok m' ∧ m'.Loose ∧ ∀ c < top, covers m' c = true ↔ covers m c = true ∨ ∃ t ∈ ts, t.Matches u f c
  | [], m, _, hm => ⟨m, rfl, hm, fun c _ => by simp⟩
  | t :: ts, m, ht, hm => by
    obtain ⟨n, h1, h2, h3⟩ := term_ok hu hf (ht t (by simp))
    have hun := union_ok (fun b hb => (hm.part b hb).2) (fun b hb => (h2.part b hb).2)
    obtain ⟨m', h4, h5, h6⟩ := unionAll_ok hu hf ts (union m n) (fun x hx => ht x (by simp [hx])) hun.1.loose
    refine ⟨m', by simp only [unionAll, h1, h4], h5, fun c hc => ?_⟩
    rw [h6 c hc, hun.2 c, h3 c hc]
    simp only [List.mem_cons, exists_eq_or_imp, or_assoc]

end Verif.Mask
